import Verif.Lib.Reads
import Verif.Props.Conc
/-
C52, C53, C54, C62: what can go wrong between the critical sections of concurrent commands.
-/
set_option linter.unusedSimpArgs false
namespace GRedis
open Prog Spec

/-! ### The reading commands only read -/

section
variable {c : Cfg} {k : Bytes} {S : Bytes → Prop}
theorem reads_dictGet : (dictGet k).Reads S := fun _ => trivial
theorem reads_expGet : (expGet k).Reads S := ⟨trivial, fun _ => trivial⟩
theorem reads_now : now.Reads S := fun _ => trivial
theorem reads_order {l : List Bytes} : (order l).Reads S := fun _ => trivial
theorem reads_hKeys {t : HashT} : (hKeys t).Reads S := reads_order
theorem reads_hValues {t : HashT} : (hValues t).Reads S := reads_bind reads_order fun _ => reads_pure
theorem reads_sMembers {t : SetT} : (sMembers t).Reads S := reads_order
theorem reads_getSets {a : List SetT} {ks : List Bytes} : (getSets a ks).Reads S := by
  induction ks generalizing a S with
  | nil => exact reads_pure
  | cons k ks ih =>
    refine reads_bind reads_dictGet fun r => ?_
    rcases r with _ | (_ | _ | _ | _) <;> first | exact ih | exact reads_pure
theorem reads_getSetsSkip {a : List SetT} {ks : List Bytes} : (getSetsSkip a ks).Reads S := by
  induction ks generalizing a S with
  | nil => exact reads_pure
  | cons k ks ih =>
    refine reads_bind reads_dictGet fun r => ?_
    rcases r with _ | (_ | _ | _ | _) <;> first | exact ih | exact reads_pure
theorem reads_liveKeys {ks : List Slice} {acc : List Bytes} : (liveKeys c acc ks).Reads S := by
  induction ks generalizing acc S with
  | nil => exact reads_pure
  | cons k ks ih =>
    refine reads_bind reads_check fun b => ?_
    split <;> exact ih
theorem reads_randLoop {ks : List Bytes} {m : Nat} : (randLoop ks m).Reads S := by
  induction m generalizing ks S with
  | zero => exact reads_pure
  | succ m ih =>
    refine reads_bind reads_order fun r => ?_
    cases r with
    | nil => exact reads_fault
    | cons a r => exact reads_bind ih fun _ => reads_pure
theorem reads_randomKeys {ks : List Bytes} {n : Int} {e : Nat} : (randomKeys c ks n e).Reads S := by
  unfold randomKeys
  split
  · exact reads_pure
  · split
    · exact reads_bind reads_order fun r => reads_pure
    · split
      · exact reads_fault
      · exact reads_randLoop
theorem reads_existsLoop {n : Nat} {ks : List Slice} : (existsLoop c n ks).Reads S := by
  induction ks generalizing n S with
  | nil => exact reads_pure
  | cons k ks ih =>
    refine reads_bind reads_check fun b => ?_
    split
    · exact ih
    · refine reads_bind (reads_withRLock reads_dictGet) fun r => ?_
      cases r <;> exact ih
theorem reads_mGetLoop {res : List Item} {ks : List Slice} : (mGetLoop c res ks).Reads S := by
  induction ks generalizing res S with
  | nil => exact reads_pure
  | cons k ks ih =>
    refine reads_bind reads_check fun b => ?_
    split
    · exact ih
    · refine reads_bind (reads_withRLock reads_dictGet) fun r => ?_
      split <;> exact ih
theorem reads_keysSegLoop {len i n : Nat} {acc : List Bytes} : (keysSegLoop len acc i n).Reads S := by
  induction n generalizing acc i S with
  | zero => exact reads_pure
  | succ n ih =>
    refine reads_bind (fun _ => trivial) fun ks => reads_bind reads_order fun ks => ?_
    split
    · exact reads_fault
    · exact ih
theorem reads_dictKeys : dictKeys.Reads S := by
  refine reads_bind (fun _ => trivial) fun n => ?_
  split
  · exact reads_fault
  · exact reads_bind (fun _ => trivial) fun _ => reads_bind reads_keysSegLoop fun _ => reads_pure
theorem reads_keysLoop {p : Bytes} {res : List Item} {ks : List Bytes} : (keysLoop c p res ks).Reads S := by
  induction ks generalizing res S with
  | nil => exact reads_pure
  | cons k ks ih =>
    refine reads_bind reads_check fun b => ?_
    split
    · exact ih
    · split
      · exact reads_fault
      · exact ih
      · exact ih
end

macro "rdstep" : tactic => `(tactic| first
  | exact reads_pure | exact reads_fault
  | exact reads_dictGet | exact reads_expGet
  | exact reads_now | exact reads_order | exact reads_check
  | exact reads_hKeys | exact reads_hValues | exact reads_sMembers | exact reads_getSets
  | exact reads_getSetsSkip | exact reads_randomKeys | exact reads_existsLoop | exact reads_mGetLoop
  | exact reads_dictKeys | exact reads_keysLoop | exact reads_liveKeys
  | with_reducible refine reads_withLock ?_
  | with_reducible refine reads_withRLock ?_
  | with_reducible refine reads_withMLock ?_
  | with_reducible refine reads_withMRLock ?_
  | with_reducible refine reads_bind ?_ fun _ => ?_
  | dsimp only
  | split)

macro "reads " f:ident : tactic => `(tactic| (unfold $f:ident; repeat' rdstep))

section
variable (c : Cfg) (cmd : List Slice) {S : Bytes → Prop}
theorem reads_pingKeys : (pingKeys cmd).Reads S := by reads pingKeys
theorem reads_ttlKey : (ttlKey c cmd).Reads S := by reads ttlKey
theorem reads_typeKey : (typeKey c cmd).Reads S := by reads typeKey
theorem reads_getString : (getString c cmd).Reads S := by reads getString
theorem reads_getRangeString : (getRangeString c cmd).Reads S := by reads getRangeString
theorem reads_strLenString : (strLenString c cmd).Reads S := by reads strLenString
theorem reads_hExistsHash : (hExistsHash c cmd).Reads S := by reads hExistsHash
theorem reads_hGetHash : (hGetHash c cmd).Reads S := by reads hGetHash
theorem reads_hGetAllHash : (hGetAllHash c cmd).Reads S := by reads hGetAllHash
theorem reads_hKeysHash : (hKeysHash c cmd).Reads S := by reads hKeysHash
theorem reads_hLenHash : (hLenHash c cmd).Reads S := by reads hLenHash
theorem reads_hMGetHash : (hMGetHash c cmd).Reads S := by reads hMGetHash
theorem reads_hValsHash : (hValsHash c cmd).Reads S := by reads hValsHash
theorem reads_hStrLenHash : (hStrLenHash c cmd).Reads S := by reads hStrLenHash
theorem reads_lIndexList : (lIndexList c cmd).Reads S := by reads lIndexList
theorem reads_lLenList : (lLenList c cmd).Reads S := by reads lLenList
theorem reads_lPosList : (lPosList c cmd).Reads S := by reads lPosList
theorem reads_lRangeList : (lRangeList c cmd).Reads S := by reads lRangeList
theorem reads_sCardSet : (sCardSet c cmd).Reads S := by reads sCardSet
theorem reads_sIsMemberSet : (sIsMemberSet c cmd).Reads S := by reads sIsMemberSet
theorem reads_sMembersSet : (sMembersSet c cmd).Reads S := by reads sMembersSet
theorem reads_setOpSet (op : SetT → List SetT → SetT) : (setOpSet op c cmd).Reads S := by reads setOpSet
theorem reads_hRandFieldBody {key : Bytes} {m : Int} {w : Bool} : (hRandFieldBody c key m w).Reads S := by reads hRandFieldBody
theorem reads_hRandFieldHash : (hRandFieldHash c cmd).Reads S := by
  reads hRandFieldHash <;> exact reads_hRandFieldBody c
theorem reads_sRandBody {key : Bytes} {m : Option Int} : (sRandBody c key m).Reads S := by reads sRandBody
theorem reads_sRandMemberSet : (sRandMemberSet c cmd).Reads S := by
  reads sRandMemberSet <;> exact reads_sRandBody c
theorem reads_existsKey : (existsKey c cmd).Reads S := by reads existsKey
theorem reads_mGetString : (mGetString c cmd).Reads S := by reads mGetString
theorem reads_keysKey : (keysKey c cmd).Reads S := by reads keysKey
end

/-- The reading commands only read. -/
theorem table_reads (c : Cfg) : ∀ e ∈ cmdTable c, e.1 ∈ readers → ∀ cmd : List Slice, (e.2 cmd).Reads fun _ => False := by
  have hn {w : Bytes} {f : List Slice → Prog Data} (h : w ∉ readers) :
      w ∈ readers → ∀ cmd : List Slice, (f cmd).Reads fun _ => False := fun h' => absurd h' h
  have hr {w : Bytes} {f : List Slice → Prog Data} (h : ∀ cmd : List Slice, (f cmd).Reads fun _ => False) :
      w ∈ readers → ∀ cmd : List Slice, (f cmd).Reads fun _ => False := fun _ => h
  simp only [cmdTable, List.forall_mem_cons]
  exact ⟨hr fun cmd => reads_pingKeys cmd, hn (by decide), hr fun cmd => reads_existsKey c cmd, hr fun cmd => reads_keysKey c cmd,
    hn (by decide), hn (by decide), hr fun cmd => reads_ttlKey c cmd, hn (by decide),
    hr fun cmd => reads_typeKey c cmd, hn (by decide), hr fun cmd => reads_getString c cmd, hr fun cmd => reads_getRangeString c cmd,
    hn (by decide), hr fun cmd => reads_mGetString c cmd, hn (by decide), hn (by decide),
    hn (by decide), hr fun cmd => reads_strLenString c cmd, hn (by decide), hn (by decide),
    hn (by decide), hn (by decide), hn (by decide), hn (by decide),
    hn (by decide), hr fun cmd => reads_hExistsHash c cmd, hr fun cmd => reads_hGetHash c cmd, hr fun cmd => reads_hGetAllHash c cmd,
    hn (by decide), hn (by decide), hr fun cmd => reads_hKeysHash c cmd, hr fun cmd => reads_hLenHash c cmd,
    hr fun cmd => reads_hMGetHash c cmd, hn (by decide), hn (by decide), hn (by decide),
    hr fun cmd => reads_hValsHash c cmd, hr fun cmd => reads_hStrLenHash c cmd, hr fun cmd => reads_hRandFieldHash c cmd, hr fun cmd => reads_lIndexList c cmd,
    hn (by decide), hr fun cmd => reads_lLenList c cmd, hn (by decide), hn (by decide),
    hr fun cmd => reads_lPosList c cmd, hn (by decide), hn (by decide), hr fun cmd => reads_lRangeList c cmd,
    hn (by decide), hn (by decide), hn (by decide), hn (by decide),
    hn (by decide), hn (by decide), hn (by decide), hr fun cmd => reads_sCardSet c cmd,
    hr fun cmd => reads_setOpSet c cmd _, hn (by decide), hr fun cmd => reads_setOpSet c cmd _, hn (by decide),
    hr fun cmd => reads_sIsMemberSet c cmd, hr fun cmd => reads_sMembersSet c cmd, hn (by decide), hn (by decide),
    hr fun cmd => reads_sRandMemberSet c cmd, hn (by decide), hr fun cmd => reads_setOpSet c cmd _, hn (by decide), by simp⟩

/-! ### Following single goroutines -/

/-- What a step does to the program of its goroutine and to the database. -/
theorem step_cases {α : Type} {env : Env} {t : Nat} {g g' : Shared α} (h : Step env t g g') :
    ∃ p p', g.threads[t]? = some p ∧ g'.threads = g.threads.set t p' ∧
      ((∃ o k, p = .op o k ∧ o.noLock ∧ g'.st = (o.exec env g.st).2 ∧ p' = k (o.exec env g.st).1) ∨
       (g'.st = g.st ∧ (p' = p ∨ ∃ o k r, p = .op o k ∧ ¬ o.noLock ∧ p' = k r))) := by
  obtain ⟨_, p, st', locks', p', hp, hs1, rfl⟩ := h
  refine ⟨p, p', hp, rfl, ?_⟩
  cases p with
  | ret a => simp [stepOp] at hs1
  | fault f => simp [stepOp] at hs1
  | op o k =>
    by_cases hn : o.noLock
    · rw [stepOp_noLock hn] at hs1
      cases hs1
      exact .inl ⟨o, k, rfl, hn, rfl, rfl⟩
    · cases o <;> first | exact absurd trivial hn | skip
      all_goals
        simp only [stepOp] at hs1
        repeat' split at hs1
        all_goals first
          | (cases hs1; exact .inr ⟨rfl, .inr ⟨_, k, (), rfl, id, rfl⟩⟩)
          | (cases hs1; done)
          | (cases hs1; exact .inr ⟨rfl, .inl rfl⟩)

/-- A reading program keeps a key whose deadline it has not seen, as long as the key has none. -/
theorem reads_keep {α : Type} {S : Bytes → Prop} {o : Op} {f : o.Ret → Prog α} (h : (Prog.op o f).Reads S) (env : Env)
    (st : St) {k : Bytes} (hk : ¬ S k) (he : st.db.exp.get k = none) :
    (∃ S', ¬ S' k ∧ (f (o.exec env st).1).Reads S') ∧ (o.exec env st).2.db.dict.get k = st.db.dict.get k ∧
      (o.exec env st).2.db.exp.get k = none := by
  cases o <;> simp only [Prog.Reads] at h <;> try exact ⟨⟨S, hk, h _⟩, rfl, he⟩
  case dictDel k' =>
    have : k ≠ k' := by rintro rfl; exact hk h.1
    refine ⟨⟨S, hk, h.2 _⟩, ?_, he⟩
    simp [Op.exec, CMap.get_del, this]
  case expDel k' =>
    have : k ≠ k' := by rintro rfl; exact hk h.1
    refine ⟨⟨S, hk, h.2 _⟩, rfl, ?_⟩
    simp [Op.exec, CMap.get_del, this, he]
  case expGet k' =>
    refine ⟨?_, rfl, he⟩
    simp only [Op.exec]
    cases hg : st.db.exp.get k' with
    | none => exact ⟨S, hk, h.1⟩
    | some t =>
      have : k ≠ k' := by rintro rfl; rw [he] at hg; cases hg
      exact ⟨_, fun hx => hx.elim hk this, h.2 t⟩

theorem reads_lock {α : Type} {S : Bytes → Prop} {o : Op} {f : o.Ret → Prog α} (h : (Prog.op o f).Reads S) (hn : ¬ o.noLock)
    (r : o.Ret) : (f r).Reads S := by
  cases o <;> first | exact absurd trivial hn | exact h r

/-! ### C53 -/

/-- A client that sends reading commands. -/
inductive ReadSession (c : Cfg) : Prog (List Data) → Prop
  | done (ds : List Data) : ReadSession c (.ret ds)
  | command {w : Bytes} {f : List Slice → Prog Data} {n : Slice} {args : List Slice} {k : Data → Prog (List Data)} :
      (w, f) ∈ cmdTable c → w ∈ readers → (∀ d, ReadSession c (k d)) → ReadSession c (f (n :: args) >>= k)

theorem ReadSession.session {c : Cfg} {p : Prog (List Data)} (h : ReadSession c p) : Session c p := by
  induction h with
  | done ds => exact .done ds
  | command hm _ _ ih => exact .command hm ih

theorem ReadSession.reads {c : Cfg} {p : Prog (List Data)} (h : ReadSession c p) : p.Reads fun _ => False := by
  induction h with
  | done ds => trivial
  | command hm hr _ ih => exact reads_bind (table_reads c _ hm hr _) ih

/-- A client that sends `SET k v` and nothing else. -/
def setClient (c : Cfg) (n k v : Slice) : Prog (List Data) := setString c [n, k, v] >>= fun d => .ret [d]

/-- C53, the full statement: when `SET k v` has been acknowledged, the value is there, without deadline, however many
clients are reading. -/
def C53_Statement : Prop :=
  ∀ (c : Cfg) (env : Env) (st : St) (n k v : Slice) (ps : List (Prog (List Data))) (g : Shared (List Data)),
    (∀ p ∈ ps, ReadSession c p) → Reach env ⟨st, freeLocks, setClient c n k v :: ps⟩ g →
    g.threads[0]? = some (.ret [rOK]) → g.entry (str k) = (some (.str v), none)

/-- The program puts `v` under `k`, or has done so (`b`), before it answers OK, and writes nothing else there. -/
def Puts (k : Bytes) (v : Slice) (b : Bool) : Prog (List Data) → Prop
  | .ret ds => ds = [rOK] → b = true
  | .fault _ => True
  | .op (.dictSet k' v') f => (k' = k → v' = .str v) ∧ ∀ r, Puts k v (b || decide (k' = k)) (f r)
  | .op (.dictDel k') f => k' ≠ k ∧ ∀ r, Puts k v b (f r)
  | .op (.objPut k' _) f => k' ≠ k ∧ ∀ r, Puts k v b (f r)
  | .op (.expSet k' _) f => k' ≠ k ∧ ∀ r, Puts k v b (f r)
  | .op (.expGet k') f => Puts k v b (f none) ∧ (k' ≠ k → ∀ t, Puts k v b (f (some t)))
  | .op _ f => ∀ r, Puts k v b (f r)

theorem puts_keep {o : Op} {f : o.Ret → Prog (List Data)} {k : Bytes} {v : Slice} {b : Bool} (h : Puts k v b (.op o f))
    (env : Env) (st : St) (he : st.db.exp.get k = none) (hb : b = true → st.db.dict.get k = some (.str v)) :
    ∃ b', Puts k v b' (f (o.exec env st).1) ∧ (o.exec env st).2.db.exp.get k = none ∧
      (b' = true → (o.exec env st).2.db.dict.get k = some (.str v)) := by
  cases o <;> simp only [Puts] at h <;> try exact ⟨b, h _, he, hb⟩
  case dictSet k' v' =>
    refine ⟨_, h.2 _, he, fun hb' => ?_⟩
    by_cases hk : k' = k
    · subst hk; simp [Op.exec, CMap.get_set, h.1 rfl]
    · simp [hk] at hb'; simp [Op.exec, CMap.get_set, Ne.symm hk, hb hb']
  case objPut k' v' => exact ⟨_, h.2 _, he, fun hb' => by simp [Op.exec, CMap.get_modify, Ne.symm h.1, hb hb']⟩
  case expSet k' v' => exact ⟨_, h.2 _, by simp [Op.exec, CMap.get_set, Ne.symm h.1, he], hb⟩
  case dictDel k' => exact ⟨_, h.2 _, he, fun hb' => by simp [Op.exec, CMap.get_del, Ne.symm h.1, hb hb']⟩
  case expDel k' => exact ⟨_, h _, by simp [Op.exec, CMap.get_del, he], hb⟩
  case expGet k' =>
    simp only [Op.exec]
    cases hg : st.db.exp.get k' with
    | none => exact ⟨b, h.1, he, hb⟩
    | some t =>
      have : k' ≠ k := by rintro rfl; rw [he] at hg; cases hg
      exact ⟨b, h.2 this t, he, hb⟩

theorem puts_lock {o : Op} {f : o.Ret → Prog (List Data)} {k : Bytes} {v : Slice} {b : Bool} (h : Puts k v b (.op o f))
    (hn : ¬ o.noLock) (r : o.Ret) : Puts k v b (f r) := by
  cases o <;> first | exact absurd trivial hn | exact h r

theorem puts_setClient (c : Cfg) (n k v : Slice) : Puts (str k) v false (setClient c n k v) := by
  unfold setClient setString
  simp only [parseSetOpts]
  refine ⟨?_, fun h => absurd rfl h⟩
  show Puts (str k) v false (withLock c (str k) (setBody (str k) v {}) >>= fun d => .ret [d])
  intro _ old
  have go : ∀ old oldOk, Puts (str k) v false ((do
      let res ← setWrite (str k) v {} oldOk
      let res := if ({} : SetOpts).get then (if oldOk then rBulk old else rNil) else res
      setTtl (str k) {}
      return res : Prog Data) >>= fun r => unlockW (c.lockPos (str k)) >>= fun _ => .ret [r]) := by
    intro old oldOk
    refine ⟨fun _ => rfl, fun _ => ?_⟩
    intro _ _ _
    simp
  rcases old with _ | (b | _ | _ | _)
  · exact go none false
  · exact go b true
  all_goals exact fun _ h => absurd h (by decide)

theorem C53_invariant {env : Env} {k : Bytes} {v : Slice} {g g' : Shared (List Data)} (hr : Reach env g g')
    (h0 : g.st.db.exp.get k = none) (h1 : ∃ p, g.threads[0]? = some p ∧ Puts k v false p)
    (h2 : ∀ (t : Nat) (p : Prog (List Data)), g.threads[t]? = some p → t ≠ 0 → p.Reads fun _ => False) :
    g'.st.db.exp.get k = none ∧
    (∃ p b, g'.threads[0]? = some p ∧ Puts k v b p ∧ (b = true → g'.st.db.dict.get k = some (.str v))) ∧
    (∀ (t : Nat) (p : Prog (List Data)), g'.threads[t]? = some p → t ≠ 0 → ∃ S, ¬ S k ∧ p.Reads S) := by
  induction hr with
  | refl =>
    obtain ⟨p, hp, hput⟩ := h1
    exact ⟨h0, ⟨p, false, hp, hput, by simp⟩, fun t p ht hn => ⟨_, id, h2 t p ht hn⟩⟩
  | @step t g1 g2 _ hs ih =>
    obtain ⟨he, ⟨p0, b, hp0, hput, hb⟩, hrd⟩ := ih
    obtain ⟨p, p', hp, hth, hcase⟩ := step_cases hs
    by_cases ht : t = 0
    · subst ht
      rw [hp] at hp0; cases hp0
      have hoth : ∀ (u : Nat) (q : Prog (List Data)), g2.threads[u]? = some q → u ≠ 0 → ∃ S, ¬ S k ∧ q.Reads S := by
        intro u q hq hu
        rw [hth, thread_other hu] at hq
        exact hrd u q hq hu
      rcases hcase with ⟨o, f, rfl, hn, hst, rfl⟩ | ⟨hst, rfl | ⟨o, f, r, rfl, hn, rfl⟩⟩
      · obtain ⟨b', h1, h2, h3⟩ := puts_keep hput env g1.st he hb
        exact ⟨hst ▸ h2, ⟨_, b', by rw [hth]; exact thread_self hp, h1, by rw [hst]; exact h3⟩, hoth⟩
      · exact ⟨hst ▸ he, ⟨_, b, by rw [hth]; exact thread_self hp, hput, by rw [hst]; exact hb⟩, hoth⟩
      · exact ⟨hst ▸ he, ⟨_, b, by rw [hth]; exact thread_self hp, puts_lock hput hn r, by rw [hst]; exact hb⟩, hoth⟩
    · obtain ⟨S, hS, hR⟩ := hrd t p hp ht
      have h00 : g2.threads[0]? = some p0 := by rw [hth, thread_other (Ne.symm ht)]; exact hp0
      have hoth : (∃ S, ¬ S k ∧ p'.Reads S) → ∀ (u : Nat) (q : Prog (List Data)), g2.threads[u]? = some q → u ≠ 0 →
          ∃ S, ¬ S k ∧ q.Reads S := by
        intro hp' u q hq hu
        rw [hth] at hq
        by_cases hut : u = t
        · subst hut
          rw [thread_self hp] at hq; cases hq; exact hp'
        · rw [thread_other hut] at hq
          exact hrd u q hq hu
      rcases hcase with ⟨o, f, rfl, hn, hst, rfl⟩ | ⟨hst, rfl | ⟨o, f, r, rfl, hn, rfl⟩⟩
      · obtain ⟨h1, h2, h3⟩ := reads_keep hR env g1.st hS he
        exact ⟨hst ▸ h3, ⟨p0, b, h00, hput, fun h => by rw [hst, h2]; exact hb h⟩, hoth h1⟩
      · exact ⟨hst ▸ he, ⟨p0, b, h00, hput, by rw [hst]; exact hb⟩, hoth ⟨S, hS, hR⟩⟩
      · exact ⟨hst ▸ he, ⟨p0, b, h00, hput, by rw [hst]; exact hb⟩, hoth ⟨S, hS, reads_lock hR hn r⟩⟩

/-- C53 (partial): if the key had no deadline before the SET, then after the acknowledgement the value is there, without
deadline, however many clients are reading. -/
theorem C53_partial {c : Cfg} {env : Env} {st : St} {n k v : Slice} {ps : List (Prog (List Data))} {g : Shared (List Data)}
    (hps : ∀ p ∈ ps, ReadSession c p) (hr : Reach env ⟨st, freeLocks, setClient c n k v :: ps⟩ g)
    (hend : g.threads[0]? = some (.ret [rOK])) (hd : st.db.exp.get (str k) = none) :
    g.entry (str k) = (some (.str v), none) := by
  obtain ⟨h1, ⟨p, b, hp, hput, hb⟩, _⟩ := C53_invariant hr hd ⟨_, rfl, puts_setClient c n k v⟩ (by
    intro t p ht hn
    cases t with
    | zero => exact absurd rfl hn
    | succ t => exact (hps p (List.mem_of_getElem? (by simpa using ht))).reads)
  rw [hend] at hp; cases hp
  simp only [Shared.entry, h1, hb (hput rfl)]

/-- C53 (partial): reading clients never change a key that has no deadline. -/
theorem C53_readers_partial {c : Cfg} {env : Env} {st : St} {k : Bytes} {ps : List (Prog (List Data))} {g : Shared (List Data)}
    (hps : ∀ p ∈ ps, ReadSession c p) (hr : Reach env ⟨st, freeLocks, ps⟩ g) (hd : st.db.exp.get k = none) :
    g.entry k = (st.db.dict.get k, none) := by
  have : (g.st.db.dict.get k = st.db.dict.get k ∧ g.st.db.exp.get k = none) ∧
      ∀ p ∈ g.threads, ∃ S, ¬ S k ∧ p.Reads S := by
    induction hr with
    | refl => exact ⟨⟨rfl, hd⟩, fun p hp => ⟨_, id, (hps p hp).reads⟩⟩
    | @step t g1 g2 _ hs ih =>
      obtain ⟨⟨hv, he⟩, hrd⟩ := ih
      obtain ⟨p, p', hp, hth, hcase⟩ := step_cases hs
      obtain ⟨S, hS, hR⟩ := hrd p (List.mem_of_getElem? hp)
      have hoth : (∃ S, ¬ S k ∧ p'.Reads S) → ∀ q ∈ g2.threads, ∃ S, ¬ S k ∧ q.Reads S := by
        intro hp' q hq
        rw [hth] at hq
        rcases List.mem_or_eq_of_mem_set hq with hq | rfl
        · exact hrd q hq
        · exact hp'
      rcases hcase with ⟨o, f, rfl, hn, hst, rfl⟩ | ⟨hst, rfl | ⟨o, f, r, rfl, hn, rfl⟩⟩
      · obtain ⟨h1, h2, h3⟩ := reads_keep hR env g1.st hS he
        exact ⟨⟨by rw [hst, h2, hv], hst ▸ h3⟩, hoth h1⟩
      · exact ⟨by rw [hst]; exact ⟨hv, he⟩, hoth ⟨S, hS, hR⟩⟩
      · exact ⟨by rw [hst]; exact ⟨hv, he⟩, hoth ⟨S, hS, reads_lock hR hn r⟩⟩
  simp only [Shared.entry, this.1]

/-- What a schedule of `Witness.outcomes` reaches. -/
theorem Witness.outcomes_reach {st : St} {cs : List (List (Bytes × List Slice))} {ts : List Nat} {k : Bytes}
    {os : List (Option (Except Fault (List Data)))} {v : Option Val} {d : Option Int}
    (h : Witness.outcomes st cs ts k = some (os, v, d)) :
    ∃ g, Reach Witness.env (Witness.conf st cs) g ∧ g.threads.map Witness.outcome = os ∧ g.entry k = (v, d) := by
  unfold Witness.outcomes at h
  cases hg : schedule Witness.env ts (Witness.conf st cs) with
  | none => rw [hg] at h; cases h
  | some g => rw [hg] at h; cases h; exact ⟨g, reach_schedule hg, rfl, rfl⟩

theorem Witness.outcome_ret {g : Shared (List Data)} {os : List (Option (Except Fault (List Data)))} {t : Nat} {ds : List Data}
    (h : g.threads.map Witness.outcome = os) (ht : os[t]? = some (some (.ok ds))) : g.threads[t]? = some (.ret ds) := by
  rw [← h, List.getElem?_map] at ht
  cases hp : g.threads[t]? with
  | none => rw [hp] at ht; cases ht
  | some p => rw [hp] at ht; cases p <;> simp [Witness.outcome] at ht; rw [ht]

theorem Witness.outcome_fault {g : Shared (List Data)} {os : List (Option (Except Fault (List Data)))} {t : Nat} {f : Fault}
    (h : g.threads.map Witness.outcome = os) (ht : os[t]? = some (some (.error f))) : g.threads[t]? = some (.fault f) := by
  rw [← h, List.getElem?_map] at ht
  cases hp : g.threads[t]? with
  | none => rw [hp] at ht; cases ht
  | some p => rw [hp] at ht; cases p <;> simp [Witness.outcome] at ht; rw [ht]

theorem Witness.read_session {w : Bytes} {f : List Slice → Prog Data} {args : List Slice} (hw : w ∈ readers)
    (hf : (cmdTable Witness.cfg).lookup w = some f) : ReadSession Witness.cfg (Witness.client Witness.cfg [(w, args)] []) := by
  rw [Witness.client, hf]
  exact .command (lookup_mem hf) hw fun d => .done _

/-- C53 is false of the code: a GET that has seen the old, expired deadline deletes the key after the SET was acknowledged. -/
theorem C53_refuted : ¬ C53_Statement := by
  intro h
  have key : Witness.outcomes (Witness.st [(b!"k", .str (some b!"old"), some 5)])
      [[(b!"set", [some b!"k", some b!"new"])], [(b!"get", [some b!"k"])]]
      ([1, 1] ++ List.replicate 13 0 ++ List.replicate 5 1) b!"k" =
      some ([some (.ok [rOK]), some (.ok [rNil])], none, none) := by decide +kernel
  obtain ⟨g, hr, ho, he⟩ := Witness.outcomes_reach key
  have := h Witness.cfg Witness.env _ (some b!"set") (some b!"k") (some b!"new") [_] g (by
    intro p hp
    rw [List.mem_singleton.1 hp]
    exact Witness.read_session (w := b!"get") (args := [some b!"k"]) (by decide) rfl) hr (Witness.outcome_ret ho rfl)
  rw [show str (some b!"k") = b!"k" from rfl, he] at this
  cases this

/-! ### C52 -/

/-- A client that sends `SETNX k v`. -/
def setNxClient (c : Cfg) (n k v : Slice) : Prog (List Data) := setNxString c [n, k, v] >>= fun d => .ret [d]

/-- C52, the full statement: of the clients that send SETNX for an absent key exactly one gets 1. -/
def C52_Statement : Prop :=
  ∀ (c : Cfg) (env : Env) (st : St) (n k : Slice) (vs : List Slice) (g : Shared (List Data)), vs ≠ [] →
    st.db.dict.get (str k) = none → st.db.exp.get (str k) = none →
    Reach env ⟨st, freeLocks, vs.map (setNxClient c n k)⟩ g → (∀ p ∈ g.threads, Finished p) →
    ∃ t : Nat, g.threads[t]? = some (.ret [rInt 1]) ∧
      ∀ (u : Nat) (p : Prog (List Data)), g.threads[u]? = some p → u ≠ t → p = .ret [rInt 0]

/-- C52 is false of the code: two clients look before either has set the key, and both get 1. -/
theorem C52_refuted : ¬ C52_Statement := by
  intro h
  have key : Witness.outcomes (Witness.st [])
      [[(b!"setnx", [some b!"k", some b!"a"])], [(b!"setnx", [some b!"k", some b!"b"])]]
      [0, 0, 1, 1, 0, 0, 0, 0, 1, 1, 1, 1] b!"k" =
      some ([some (.ok [rInt 1]), some (.ok [rInt 1])], some (.str (some b!"b")), none) := by decide +kernel
  obtain ⟨g, hr, ho, _⟩ := Witness.outcomes_reach key
  have h0 : g.threads[0]? = some (.ret [rInt 1]) := Witness.outcome_ret ho rfl
  have h1 : g.threads[1]? = some (.ret [rInt 1]) := Witness.outcome_ret ho rfl
  obtain ⟨t, _, ht⟩ := h Witness.cfg Witness.env (Witness.st []) (some b!"setnx") (some b!"k") [some b!"a", some b!"b"] g
    (by simp) (by decide +kernel) (by decide +kernel) hr (by
      intro p hp
      obtain ⟨u, hu⟩ := List.getElem?_of_mem hp
      have hlen : g.threads.length = 2 := by
        have := congrArg List.length ho; simpa using this
      have hlt : u < 2 := by
        rw [← hlen]; rw [List.getElem?_eq_some_iff] at hu; exact hu.1
      have : u = 0 ∨ u = 1 := by omega
      rcases this with rfl | rfl
      · rw [h0] at hu; cases hu; exact ⟨_, rfl⟩
      · rw [h1] at hu; cases hu; exact ⟨_, rfl⟩)
  have hne : (Prog.ret [rInt 1] : Prog (List Data)) ≠ .ret [rInt 0] := by
    intro he; injection he with he; exact absurd he (by decide)
  by_cases h : t = 0
  · subst h; exact hne (ht 1 _ h1 (by omega))
  · exact hne (ht 0 _ h0 (Ne.symm h))

/-- How far a SETNX has got. -/
inductive NxPhase where
  | start   -- has not found the key
  | seen    -- has found the key
  | set     -- has set the key

/-- The rest of a SETNX of the value `v`. -/
def Nx (k : Bytes) (v : Slice) (s : NxPhase) : Prog (List Data) → Prop
  | .ret ds => (s = .seen ∧ ds = [rInt 0]) ∨ (s = .set ∧ ds = [rInt 1])
  | .fault _ => False
  | .op (.dictGet k') f => k' = k ∧ s = .start ∧ Nx k v s (f none) ∧ ∀ w, Nx k v .seen (f (some w))
  | .op (.dictSet k' v') f => k' = k ∧ v' = .str v ∧ ∀ r, Nx k v .set (f r)
  | .op (.expGet k') f => k' = k ∧ Nx k v s (f none)
  | .op (.lockW _) f => Nx k v s (f ())
  | .op (.unlockW _) f => Nx k v s (f ())
  | _ => False

theorem nx_client (c : Cfg) (n k v : Slice) : Nx (str k) v .start (setNxClient c n k v) := by
  refine ⟨rfl, rfl, rfl, ?_, fun w => .inl ⟨rfl, rfl⟩⟩
  exact ⟨rfl, rfl, fun _ => .inr ⟨rfl, rfl⟩⟩

/-- The clients and the key while SETNX are running: who has set it, and with which value. -/
structure NxInv (k : Bytes) (vs : List Slice) (g : Shared (List Data)) (ph : Nat → NxPhase) : Prop where
  rest : ∀ (t : Nat) (p : Prog (List Data)), g.threads[t]? = some p → ∃ v, vs[t]? = some v ∧ Nx k v (ph t) p
  noExp : g.st.db.exp.get k = none
  value : ∀ w, g.st.db.dict.get k = some w → ∃ (t : Nat) (v : Slice), vs[t]? = some v ∧ ph t = .set ∧ w = .str v
  found : ∀ t : Nat, ph t ≠ .start → g.st.db.dict.get k ≠ none

theorem nxInv_step {k : Bytes} {vs : List Slice} {env : Env} {t : Nat} {g g' : Shared (List Data)} {ph : Nat → NxPhase}
    (hi : NxInv k vs g ph) (hs : Step env t g g') : ∃ ph', NxInv k vs g' ph' := by
  obtain ⟨p, p', hp, hth, hcase⟩ := step_cases hs
  obtain ⟨v, hv, hnx⟩ := hi.rest t p hp
  have hrest : ∀ s, Nx k v s p' → ∀ (u : Nat) (q : Prog (List Data)), g'.threads[u]? = some q →
      ∃ w, vs[u]? = some w ∧ Nx k w (if u = t then s else ph u) q := by
    intro s hp' u q hq
    rw [hth] at hq
    by_cases hu : u = t
    · subst hu
      rw [thread_self hp] at hq; cases hq
      exact ⟨v, hv, by simpa using hp'⟩
    · rw [thread_other hu] at hq
      obtain ⟨w, hw, hn⟩ := hi.rest u q hq
      exact ⟨w, hw, by simpa [hu] using hn⟩
  have same : g'.st.db = g.st.db → Nx k v (ph t) p' → ∃ ph', NxInv k vs g' ph' := by
    intro hst hp'
    refine ⟨ph, ⟨?_, hst ▸ hi.noExp, hst ▸ hi.value, hst ▸ hi.found⟩⟩
    intro u q hq
    obtain ⟨w, hw, hn⟩ := hrest (ph t) hp' u q hq
    refine ⟨w, hw, ?_⟩
    by_cases hu : u = t
    · subst hu; simpa using hn
    · simpa [hu] using hn
  rcases hcase with ⟨o, f, rfl, hn, hst, rfl⟩ | ⟨hst, rfl | ⟨o, f, r, rfl, hn, rfl⟩⟩
  · cases o <;> simp only [Nx] at hnx
    case dictGet k' =>
      obtain ⟨rfl, h0, h1, h2⟩ := hnx
      have hdb : g'.st.db = g.st.db := by rw [hst]; rfl
      simp only [Op.exec] at hrest same
      cases hg : g.st.db.dict.get k' with
      | none => rw [hg] at same; exact same hdb h1
      | some w =>
        rw [hg] at hrest
        refine ⟨fun u => if u = t then .seen else ph u, ⟨hrest .seen (h2 w), hdb ▸ hi.noExp, ?_, ?_⟩⟩
        · rw [hdb]
          intro w' hw'
          obtain ⟨u, x, hx, hset, he⟩ := hi.value w' hw'
          by_cases hu : u = t
          · subst hu
            rw [h0] at hset; cases hset
          · exact ⟨u, x, hx, by simpa [hu] using hset, he⟩
        · rw [hdb]
          intro u hu
          rw [hg]; simp
    case dictSet k' v' =>
      obtain ⟨rfl, rfl, h1⟩ := hnx
      refine ⟨fun u => if u = t then .set else ph u, ⟨hrest .set (h1 _), ?_, ?_, ?_⟩⟩
      · rw [hst]; exact hi.noExp
      · rw [hst]
        intro w hw
        simp only [Op.exec, CMap.get_set, if_true, Option.some.injEq] at hw
        exact ⟨t, v, hv, by simp, hw.symm⟩
      · rw [hst]
        intro u _
        simp [Op.exec, CMap.get_set]
    case expGet k' =>
      obtain ⟨rfl, h1⟩ := hnx
      refine same (by rw [hst]; rfl) ?_
      simp only [Op.exec, hi.noExp]
      exact h1
    all_goals exact absurd hn id
  · exact same (by rw [hst]) hnx
  · refine same (by rw [hst]) ?_
    cases o <;> first | exact absurd trivial hn | skip
    all_goals simp only [Nx] at hnx <;> exact hnx

theorem nx_reach {c : Cfg} {env : Env} {st : St} {n k : Slice} {vs : List Slice} {g : Shared (List Data)}
    (h1 : st.db.dict.get (str k) = none) (h2 : st.db.exp.get (str k) = none)
    (hr : Reach env ⟨st, freeLocks, vs.map (setNxClient c n k)⟩ g) : ∃ ph, NxInv (str k) vs g ph := by
  induction hr with
  | refl =>
    refine ⟨fun _ => .start, ⟨?_, h2, ?_, ?_⟩⟩
    · intro t p hp
      rw [List.getElem?_map] at hp
      cases hv : vs[t]? with
      | none => rw [hv] at hp; cases hp
      | some v => rw [hv] at hp; cases hp; exact ⟨v, rfl, nx_client c n k v⟩
    · intro w hw; rw [h1] at hw; cases hw
    · intro t ht; exact absurd rfl ht
  | step _ hs ih =>
    obtain ⟨ph, hi⟩ := ih
    exact nxInv_step hi hs

/-- C52 (partial): when all clients have their replies, each reply is 0 or 1, at least one is 1, and the key has the value
of a client that got 1. -/
theorem C52_partial {c : Cfg} {env : Env} {st : St} {n k : Slice} {vs : List Slice} {g : Shared (List Data)} (hvs : vs ≠ [])
    (h1 : st.db.dict.get (str k) = none) (h2 : st.db.exp.get (str k) = none)
    (hr : Reach env ⟨st, freeLocks, vs.map (setNxClient c n k)⟩ g) (hf : ∀ p ∈ g.threads, Finished p) :
    (∀ p ∈ g.threads, p = .ret [rInt 0] ∨ p = .ret [rInt 1]) ∧
    ∃ (t : Nat) (v : Slice), g.threads[t]? = some (.ret [rInt 1]) ∧ vs[t]? = some v ∧ g.entry (str k) = (some (.str v), none) := by
  have hlen : ∀ {g' : Shared (List Data)}, Reach env ⟨st, freeLocks, vs.map (setNxClient c n k)⟩ g' → g'.threads.length = vs.length := by
    intro g' hr
    induction hr with
    | refl => simp
    | step _ hs ih =>
      obtain ⟨p, p', _, hth, _⟩ := step_cases hs
      rw [hth, List.length_set, ih]
  have hlen := hlen hr
  obtain ⟨ph, hi⟩ := nx_reach h1 h2 hr
  have cases01 : ∀ (t : Nat) (p : Prog (List Data)), g.threads[t]? = some p →
      (ph t = .seen ∧ p = .ret [rInt 0]) ∨ (ph t = .set ∧ p = .ret [rInt 1]) := by
    intro t p hp
    obtain ⟨v, hv, hn⟩ := hi.rest t p hp
    obtain ⟨ds, rfl⟩ := hf p (List.mem_of_getElem? hp)
    rcases hn with ⟨h1, h2⟩ | ⟨h1, h2⟩
    · exact .inl ⟨h1, by rw [h2]⟩
    · exact .inr ⟨h1, by rw [h2]⟩
  have winner : g.st.db.dict.get (str k) ≠ none → ∃ (t : Nat) (v : Slice), g.threads[t]? = some (.ret [rInt 1]) ∧
      vs[t]? = some v ∧ g.entry (str k) = (some (.str v), none) := by
    intro hne
    cases hw : g.st.db.dict.get (str k) with
    | none => exact absurd hw hne
    | some w =>
      obtain ⟨t, v, hv, hset, rfl⟩ := hi.value w hw
      have hlt : t < g.threads.length := by
        rw [hlen]; rw [List.getElem?_eq_some_iff] at hv; exact hv.1
      rcases cases01 t _ (List.getElem?_eq_getElem hlt) with ⟨h, _⟩ | ⟨_, h⟩
      · rw [hset] at h; cases h
      · refine ⟨t, v, ?_, hv, ?_⟩
        · rw [List.getElem?_eq_getElem hlt, h]
        · simp only [Shared.entry, hw, hi.noExp]
  refine ⟨fun p hp => ?_, ?_⟩
  · obtain ⟨t, ht⟩ := List.getElem?_of_mem hp
    rcases cases01 t p ht with ⟨_, h⟩ | ⟨_, h⟩
    · exact .inl h
    · exact .inr h
  · have h0 : 0 < g.threads.length := by rw [hlen]; exact List.length_pos_iff.2 hvs
    rcases cases01 0 _ (List.getElem?_eq_getElem h0) with ⟨h, _⟩ | ⟨h, hp⟩
    · exact winner (hi.found 0 (by rw [h]; simp))
    · exact winner (hi.found 0 (by rw [h]; simp))

/-- Example for C52: run one after the other, the first SETNX wins. -/
example : Witness.outcomes (Witness.st [])
    [[(b!"setnx", [some b!"k", some b!"a"])], [(b!"setnx", [some b!"k", some b!"b"])]]
    [0, 0, 0, 0, 0, 0, 1, 1] b!"k" =
    some ([some (.ok [rInt 1]), some (.ok [rInt 0])], some (.str (some b!"a")), none) := by decide +kernel

/-- Example for C53: two GETs around a SET of a key without deadline. -/
example : Witness.outcomes (Witness.st [(b!"k", .str (some b!"old"), none)])
    [[(b!"set", [some b!"k", some b!"new"])], [(b!"get", [some b!"k"]), (b!"get", [some b!"k"])]]
    [1, 0, 1, 0, 1, 1, 0, 1, 0, 0, 0, 0, 1, 1, 1] b!"k" =
    some ([some (.ok [rOK]), some (.ok [rBulk (some b!"old"), rBulk (some b!"new")])], some (.str (some b!"new")), none) := by decide +kernel

end GRedis
