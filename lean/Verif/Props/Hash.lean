import Verif.Props.Strings
import Verif.Model.CmdHash
/-
Hash commands (C26-C29).
-/
namespace GRedis.Spec

/-- The finite map a hash command works on: an absent key counts as the empty map; `none` when the
key holds another kind of value. -/
def asHash : Option Entry → Option (Bytes → Option Slice)
  | none => some fun _ => none
  | some ⟨.hash f, _⟩ => some f
  | some _ => none

/-- The deadline of an entry, none when absent. -/
def ttlOf (e : Option Entry) : Option Int := e.bind (·.ttl)

/-- The map after writing the listed pairs in order. -/
def writeAll (f : Bytes → Option Slice) (fvs : List (Slice × Slice)) : Bytes → Option Slice :=
  fun x => match lastVal fvs x with
    | some v => some v
    | none => f x

open Classical in
/-- The map without the listed fields. -/
noncomputable def eraseAll (f : Bytes → Option Slice) (fs : List Slice) : Bytes → Option Slice :=
  fun x => if x ∈ fs.map str then none else f x

end GRedis.Spec

namespace GRedis
open Prog Spec
set_option linter.unusedSimpArgs false

theorem enumerates_perm {l l' : List Bytes} {m : Bytes → Prop} (h : l'.Perm l) (he : Enumerates l m) :
    Enumerates l' m := ⟨h.nodup_iff.2 he.1, fun x => by rw [h.mem_iff, he.2]⟩

theorem hash_enum {h : HashT} (hw : (Val.hash h).WF) : Enumerates (h.map (·.1)) fun x => (mget h x).isSome :=
  ⟨hw, fun x => (mget_isSome_iff h x).symm⟩

theorem hGet_eq (h : HashT) (f : Bytes) : hGet h f = (mget h f).getD none := rfl

theorem enum_nil : Enumerates [] fun x => ((none : Option Slice)).isSome ∧ x = x := ⟨by simp, by simp⟩

section
variable (c : Cfg) (env : Env) (s : St) (n k : Slice)

/-! ### Readers -/

/-- C26: HGET returns the value of the field, nil when there is none. -/
theorem C26_hget (fd : Slice) (hI : s.db.Inv) :
    Runs env (command c b!"hget" [n, k, fd]) s fun r s' => s'.db.view = live env s (str k) ∧
      match asHash (live env s (str k) (str k)) with
      | some f => r = replyBulk ((f (str fd)).getD none)
      | none => IsErr r := by
  simp only [command_hget]
  simp only [hGetHash, Runs, wp_bind]
  refine wp_check env c _ s _ fun b s1 hc => ?_
  rw [hc.live]
  have hI1 := hc.inv hI
  cases b
  · rcases hd : s1.db.dict.get (str k) with _ | v
    · rw [Db.view_none hd]; simp [hd, hI1, asHash, rNil]
    · rw [Db.view_some hd]; cases v <;> simp [hd, hI1, Val.abs, asHash, eWrong, isErr_rErr, rBulk, hGet_eq]
  · rw [Db.view_none (hc.gone rfl)]; simp [hI1, asHash, rNil]

/-- C26: HEXISTS says whether the field is there. -/
theorem C26_hexists (fd : Slice) (hI : s.db.Inv) :
    Runs env (command c b!"hexists" [n, k, fd]) s fun r s' => s'.db.view = live env s (str k) ∧
      match asHash (live env s (str k) (str k)) with
      | some f => r = replyInt (if (f (str fd)).isSome then 1 else 0)
      | none => IsErr r := by
  simp only [command_hexists]
  simp only [hExistsHash, Runs, wp_bind]
  refine wp_check env c _ s _ fun b s1 hc => ?_
  rw [hc.live]
  have hI1 := hc.inv hI
  cases b
  · rcases hd : s1.db.dict.get (str k) with _ | v
    · rw [Db.view_none hd]; simp [hd, hI1, asHash, rInt]
    · rw [Db.view_some hd]
      cases v with
      | hash h =>
        simp only [Bool.false_eq_true, if_false, wp_withRLock, wp_bind, wp_dictGet, hd, Val.abs, asHash, hExist]
        by_cases hh : (mget h (str fd)).isSome = true <;> simp [hh, hI1, rInt]
      | str _ => simp [hd, hI1, Val.abs, asHash, eWrong, isErr_rErr]
      | list _ => simp [hd, hI1, Val.abs, asHash, eWrong, isErr_rErr]
      | set _ => simp [hd, hI1, Val.abs, asHash, eWrong, isErr_rErr]
  · rw [Db.view_none (hc.gone rfl)]; simp [hI1, asHash, rInt]

/-- C26: HSTRLEN is the length of the value, 0 when there is none. -/
theorem C26_hstrlen (fd : Slice) (hI : s.db.Inv) :
    Runs env (command c b!"hstrlen" [n, k, fd]) s fun r s' => s'.db.view = live env s (str k) ∧
      match asHash (live env s (str k) (str k)) with
      | some f => r = replyInt (((f (str fd)).getD none).getD []).length
      | none => IsErr r := by
  simp only [command_hstrlen]
  simp only [hStrLenHash, Runs, wp_bind]
  refine wp_check env c _ s _ fun b s1 hc => ?_
  rw [hc.live]
  have hI1 := hc.inv hI
  cases b
  · rcases hd : s1.db.dict.get (str k) with _ | v
    · rw [Db.view_none hd]; simp [hd, hI1, asHash, rInt]
    · rw [Db.view_some hd]
      cases v <;> simp [hd, hI1, Val.abs, asHash, eWrong, isErr_rErr, rInt, hStrLen, hGet_eq, slen_eq]
  · rw [Db.view_none (hc.gone rfl)]; simp [hI1, asHash, rInt]

/-- C26: HLEN is the number of fields. -/
theorem C26_hlen (hI : s.db.Inv) :
    Runs env (command c b!"hlen" [n, k]) s fun r s' => s'.db.view = live env s (str k) ∧
      match asHash (live env s (str k) (str k)) with
      | some f => ∃ m : Nat, CardIs m (fun x => (f x).isSome) ∧ r = replyInt m
      | none => IsErr r := by
  simp only [command_hlen]
  simp only [hLenHash, Runs, wp_bind]
  refine wp_check env c _ s _ fun b s1 hc => ?_
  rw [hc.live]
  have hI1 := hc.inv hI
  have h0 : CardIs 0 fun x : Bytes => ((fun _ => none : Bytes → Option Slice) x).isSome := ⟨[], ⟨by simp, by simp⟩, rfl⟩
  cases b
  · simp only [Bool.false_eq_true, if_false, wp_withRLock, wp_bind, wp_dictGet]
    rcases hd : s1.db.dict.get (str k) with _ | v
    · rw [Db.view_none hd]; exact ⟨hI1, rfl, 0, h0, rfl⟩
    · rw [Db.view_some hd]
      cases v with
      | hash h => exact ⟨hI1, rfl, h.length, ⟨_, hash_enum (hI1.val _ _ hd), by simp⟩, rfl⟩
      | str _ => simp [hd, hI1, Val.abs, asHash, eWrong, isErr_rErr]
      | list _ => simp [hd, hI1, Val.abs, asHash, eWrong, isErr_rErr]
      | set _ => simp [hd, hI1, Val.abs, asHash, eWrong, isErr_rErr]
  · rw [Db.view_none (hc.gone rfl)]; exact ⟨hI1, rfl, 0, h0, rfl⟩

/-- C26: HKEYS lists every field once. -/
theorem C26_hkeys (hI : s.db.Inv) :
    Runs env (command c b!"hkeys" [n, k]) s fun r s' => s'.db.view = live env s (str k) ∧
      match asHash (live env s (str k) (str k)) with
      | some f => ∃ l, Enumerates l (fun x => (f x).isSome) ∧ r = replyBulks (l.map some)
      | none => IsErr r := by
  simp only [command_hkeys]
  simp only [hKeysHash, Runs, wp_bind]
  refine wp_check env c _ s _ fun b s1 hc => ?_
  rw [hc.live]
  have hI1 := hc.inv hI
  have h0 : Enumerates [] fun x : Bytes => ((fun _ => none : Bytes → Option Slice) x).isSome := ⟨by simp, by simp⟩
  cases b
  · simp only [Bool.false_eq_true, if_false, wp_withRLock, wp_bind, wp_dictGet]
    rcases hd : s1.db.dict.get (str k) with _ | v
    · rw [Db.view_none hd]; exact ⟨hI1, rfl, [], h0, rfl⟩
    · rw [Db.view_some hd]
      cases v with
      | hash h =>
        simp only [hKeys, wp_bind, wp_order, wp_pure, Val.abs, asHash]
        refine ⟨hI1, trivial, env.ord s1.tick (h.map (·.1)), enumerates_perm (env.ord_perm _ _) (hash_enum (hI1.val _ _ hd)),
          by simp [rArr, Function.comp_def]⟩
      | str _ => simp [hd, hI1, Val.abs, asHash, eWrong, isErr_rErr]
      | list _ => simp [hd, hI1, Val.abs, asHash, eWrong, isErr_rErr]
      | set _ => simp [hd, hI1, Val.abs, asHash, eWrong, isErr_rErr]
  · rw [Db.view_none (hc.gone rfl)]; exact ⟨hI1, rfl, [], h0, rfl⟩

/-- C26: HVALS lists the value of every field once. -/
theorem C26_hvals (hI : s.db.Inv) :
    Runs env (command c b!"hvals" [n, k]) s fun r s' => s'.db.view = live env s (str k) ∧
      match asHash (live env s (str k) (str k)) with
      | some f => ∃ l, Enumerates l (fun x => (f x).isSome) ∧ r = replyBulks (l.map fun x => (f x).getD none)
      | none => IsErr r := by
  simp only [command_hvals]
  simp only [hValsHash, Runs, wp_bind]
  refine wp_check env c _ s _ fun b s1 hc => ?_
  rw [hc.live]
  have hI1 := hc.inv hI
  have h0 : Enumerates [] fun x : Bytes => ((fun _ => none : Bytes → Option Slice) x).isSome := ⟨by simp, by simp⟩
  cases b
  · simp only [Bool.false_eq_true, if_false, wp_withRLock, wp_bind, wp_dictGet]
    rcases hd : s1.db.dict.get (str k) with _ | v
    · rw [Db.view_none hd]; exact ⟨hI1, rfl, [], h0, rfl⟩
    · rw [Db.view_some hd]
      cases v with
      | hash h =>
        simp only [hValues, wp_bind, wp_order, wp_pure, Val.abs, asHash]
        refine ⟨hI1, trivial, env.ord s1.tick (h.map (·.1)), enumerates_perm (env.ord_perm _ _) (hash_enum (hI1.val _ _ hd)),
          by simp [rArr, Function.comp_def, hGet_eq]⟩
      | str _ => simp [hd, hI1, Val.abs, asHash, eWrong, isErr_rErr]
      | list _ => simp [hd, hI1, Val.abs, asHash, eWrong, isErr_rErr]
      | set _ => simp [hd, hI1, Val.abs, asHash, eWrong, isErr_rErr]
  · rw [Db.view_none (hc.gone rfl)]; exact ⟨hI1, rfl, [], h0, rfl⟩

/-- C26: HGETALL lists every field once, each followed by its value. -/
theorem C26_hgetall (hI : s.db.Inv) :
    Runs env (command c b!"hgetall" [n, k]) s fun r s' => s'.db.view = live env s (str k) ∧
      match asHash (live env s (str k) (str k)) with
      | some f => ∃ l, Enumerates l (fun x => (f x).isSome) ∧
          r = replyBulks (l.flatMap fun x => [some x, (f x).getD none])
      | none => IsErr r := by
  simp only [command_hgetall]
  simp only [hGetAllHash, Runs, wp_bind]
  refine wp_check env c _ s _ fun b s1 hc => ?_
  rw [hc.live]
  have hI1 := hc.inv hI
  have h0 : Enumerates [] fun x : Bytes => ((fun _ => none : Bytes → Option Slice) x).isSome := ⟨by simp, by simp⟩
  cases b
  · simp only [Bool.false_eq_true, if_false, wp_withRLock, wp_bind, wp_dictGet]
    rcases hd : s1.db.dict.get (str k) with _ | v
    · rw [Db.view_none hd]; exact ⟨hI1, rfl, [], h0, rfl⟩
    · rw [Db.view_some hd]
      cases v with
      | hash h =>
        simp only [wp_bind, wp_order, wp_pure, Val.abs, asHash]
        refine ⟨hI1, trivial, env.ord s1.tick (h.map (·.1)), enumerates_perm (env.ord_perm _ _) (hash_enum (hI1.val _ _ hd)),
          by simp [rArr, List.map_flatMap, hGet_eq]⟩
      | str _ => simp [hd, hI1, Val.abs, asHash, eWrong, isErr_rErr]
      | list _ => simp [hd, hI1, Val.abs, asHash, eWrong, isErr_rErr]
      | set _ => simp [hd, hI1, Val.abs, asHash, eWrong, isErr_rErr]
  · rw [Db.view_none (hc.gone rfl)]; exact ⟨hI1, rfl, [], h0, rfl⟩

/-- C26, the full statement for HMGET: one element per requested field. -/
def C26_hmget_Statement : Prop :=
  ∀ (c : Cfg) (env : Env) (s : St) (n k fd : Slice) (fs : List Slice), s.db.Inv →
    Runs env (command c b!"hmget" (n :: k :: fd :: fs)) s fun r s' => s'.db.view = live env s (str k) ∧
      match asHash (live env s (str k) (str k)) with
      | some f => r = replyBulks ((fd :: fs).map fun x => (f (str x)).getD none)
      | none => IsErr r

/-- C26 for HMGET.  Missing: for an absent key the code answers an empty array instead of one nil per
field (`C26_hmget_refuted`). -/
theorem C26_hmget_partial (fd : Slice) (fs : List Slice) (hI : s.db.Inv) :
    Runs env (command c b!"hmget" (n :: k :: fd :: fs)) s fun r s' => s'.db.view = live env s (str k) ∧
      match live env s (str k) (str k) with
      | some ⟨.hash f, _⟩ => r = replyBulks ((fd :: fs).map fun x => (f (str x)).getD none)
      | none => r = replyBulks []
      | some _ => IsErr r := by
  simp only [command_hmget]
  simp only [hMGetHash, Runs, wp_bind]
  refine wp_check env c _ s _ fun b s1 hc => ?_
  rw [hc.live]
  have hI1 := hc.inv hI
  cases b
  · rcases hd : s1.db.dict.get (str k) with _ | v
    · rw [Db.view_none hd]; simp [hd, hI1, rArr]
    · rw [Db.view_some hd]
      cases v <;> simp [hd, hI1, Val.abs, eWrong, isErr_rErr, rArr, hGet_eq]
  · rw [Db.view_none (hc.gone rfl)]; simp [hI1, rArr]

theorem C26_hmget_refuted : ¬ C26_hmget_Statement := by
  intro h
  have h1 := h Witness.cfg Witness.env (Witness.st []) none (some b!"k") (some b!"f") [] (Witness.st_inv _ (by decide))
  obtain ⟨s', _, hr⟩ := Witness.reply_of_runs (d := rArr []) h1 (by decide +kernel)
  rw [show str (some b!"k") = b!"k" from rfl, Witness.live_none _ _ (by decide +kernel)] at hr
  exact absurd hr.2 (by simp [rArr, asHash])

/-! ### HSET, HMSET, HDEL -/

theorem hSetLoop_spec (fvs : List (Slice × Slice)) (h : HashT) (res : Nat) (hw : (Val.hash h).WF) :
    (Val.hash (hSetLoop h res (fvs.flatMap fun p => [p.1, p.2])).1).WF ∧
    mget (hSetLoop h res (fvs.flatMap fun p => [p.1, p.2])).1 = writeAll (mget h) fvs ∧
    ∃ m, CardIs m (fun x => x ∈ fvs.map (fun p => str p.1) ∧ mget h x = none) ∧
      (hSetLoop h res (fvs.flatMap fun p => [p.1, p.2])).2 = res + m := by
  induction fvs generalizing h res with
  | nil => exact ⟨hw, rfl, 0, ⟨[], ⟨by simp, by simp⟩, rfl⟩, rfl⟩
  | cons p fvs ih =>
    have hw1 : (Val.hash (mset h (str p.1) p.2)).WF := mset_keys_nodup hw _ _
    obtain ⟨i1, i2, m, ⟨l, ⟨hl1, hl2⟩, rfl⟩, i4⟩ :=
      ih (mset h (str p.1) p.2) (res + (hSet h (str p.1) p.2).2) hw1
    have he : hSetLoop h res ((p :: fvs).flatMap fun p => [p.1, p.2]) =
        hSetLoop (mset h (str p.1) p.2) (res + (hSet h (str p.1) p.2).2) (fvs.flatMap fun p => [p.1, p.2]) := rfl
    rw [he]
    refine ⟨i1, ?_, ?_⟩
    · rw [i2]
      funext x
      simp only [writeAll, lastVal, List.reverse_cons, List.find?_append]
      rcases hf : fvs.reverse.find? (fun p => decide (str p.1 = x)) with _ | q
      · simp only [Option.map_none, Option.none_or, List.find?_cons, List.find?_nil, mget_mset]
        by_cases hx : str p.1 = x
        · simp [hf, hx]
        · have hx' : ¬ x = str p.1 := fun e => hx e.symm
          simp [hf, hx, hx']
      · simp [hf]
    · simp only [mget_mset] at hl2
      have hnl : str p.1 ∉ l := by rw [hl2]; simp
      rcases hp : mget h (str p.1) with _ | v
      · refine ⟨l.length + 1, ⟨str p.1 :: l, ⟨List.nodup_cons.2 ⟨hnl, hl1⟩, fun x => ?_⟩, rfl⟩, ?_⟩
        · simp only [List.mem_cons, hl2, List.map_cons]
          by_cases hx : x = str p.1
          · simp [hx, hp]
          · simp [hx]
        · rw [i4]; simp [hSet, hExist, hp]; omega
      · refine ⟨l.length, ⟨l, ⟨hl1, fun x => ?_⟩, rfl⟩, ?_⟩
        · simp only [hl2, List.map_cons, List.mem_cons]
          by_cases hx : x = str p.1
          · simp [hx, hp]
          · simp [hx]
        · rw [i4]; simp [hSet, hExist, hp]

theorem flat_length (fvs : List (Slice × Slice)) : (fvs.flatMap fun p => [p.1, p.2]).length = 2 * fvs.length := by
  induction fvs with
  | nil => rfl
  | cons p fvs ih => simp at ih ⊢; omega

/-- C26: HSET writes the listed fields (the last value for each), keeps the deadline, and returns the
number of fields that are new; another kind of value is an error without change. -/
theorem C26_hset (fvs : List (Slice × Slice)) (hne : fvs ≠ []) (hI : s.db.Inv) :
    Runs env (command c b!"hset" (n :: k :: fvs.flatMap fun p => [p.1, p.2])) s fun r s' =>
      match asHash (live env s (str k) (str k)) with
      | some f =>
        (∃ m : Nat, CardIs m (fun x => x ∈ fvs.map (fun p => str p.1) ∧ f x = none) ∧ r = replyInt m) ∧
        s'.db.view = (live env s (str k)).put (str k)
          (some ⟨.hash (writeAll f fvs), ttlOf (live env s (str k) (str k))⟩)
      | none => IsErr r ∧ s'.db.view = live env s (str k) := by
  simp only [command_hset]
  have hlen := flat_length fvs
  have hpos : 0 < fvs.length := List.length_pos_iff.2 hne
  simp only [hSetHash, Runs, List.length_cons, hlen]
  rw [if_neg (by omega)]
  simp only [wp_bind]
  refine wp_check env c _ s _ fun b s1 hc => ?_
  rw [hc.live]
  have hI1 := hc.inv hI
  simp only [wp_withLock, wp_bind, getOrCreate, wp_dictGet]
  rcases hd : s1.db.dict.get (str k) with _ | v
  · rw [Db.view_none hd]
    simp only [wp_bind, wp_dictSet, wp_pure, wp_objPut]
    obtain ⟨h1, h2, m, h3, h4⟩ := hSetLoop_spec fvs [] 0 (by simp [Val.WF])
    refine ⟨(hI1.setV _ (by simp [Val.WF])).modV _ h1, ⟨m, h3, by rw [h4]; simp [rInt]⟩, ?_⟩
    rw [Db.view_modV, Db.view_setV, Store.put_self, Store.put_put, hI1.exp_none _ hd]
    simp only [Option.map_some, Val.abs, h2]
    rfl
  · rw [Db.view_some hd]
    cases v with
    | hash h =>
      simp only [wp_bind, wp_pure, wp_objPut]
      obtain ⟨h1, h2, m, h3, h4⟩ := hSetLoop_spec fvs h 0 (hI1.val _ _ hd)
      refine ⟨hI1.modV _ h1, ⟨m, h3, by rw [h4]; simp [rInt]⟩, ?_⟩
      rw [Db.view_modV, Db.view_some hd]
      simp only [Option.map_some, Val.abs, h2]
      rfl
    | str _ => simp [hI1, Val.abs, asHash, eWrong, isErr_rErr]
    | list _ => simp [hI1, Val.abs, asHash, eWrong, isErr_rErr]
    | set _ => simp [hI1, Val.abs, asHash, eWrong, isErr_rErr]

/-- C26: HMSET writes the listed fields and answers OK. -/
theorem C26_hmset (fvs : List (Slice × Slice)) (hne : fvs ≠ []) (hI : s.db.Inv) :
    Runs env (command c b!"hmset" (n :: k :: fvs.flatMap fun p => [p.1, p.2])) s fun r s' =>
      match asHash (live env s (str k) (str k)) with
      | some f => r = replyOK ∧ s'.db.view = (live env s (str k)).put (str k)
          (some ⟨.hash (writeAll f fvs), ttlOf (live env s (str k) (str k))⟩)
      | none => IsErr r ∧ s'.db.view = live env s (str k) := by
  simp only [command_hmset]
  have hlen := flat_length fvs
  have hpos : 0 < fvs.length := List.length_pos_iff.2 hne
  simp only [hMSetHash, Runs, List.length_cons, hlen]
  rw [if_neg (by omega)]
  simp only [wp_bind]
  refine wp_check env c _ s _ fun b s1 hc => ?_
  rw [hc.live]
  have hI1 := hc.inv hI
  simp only [wp_withLock, wp_bind, getOrCreate, wp_dictGet]
  rcases hd : s1.db.dict.get (str k) with _ | v
  · rw [Db.view_none hd]
    simp only [wp_bind, wp_dictSet, wp_pure, wp_objPut]
    obtain ⟨h1, h2, m, h3, h4⟩ := hSetLoop_spec fvs [] 0 (by simp [Val.WF])
    refine ⟨(hI1.setV _ (by simp [Val.WF])).modV _ h1, rfl, ?_⟩
    rw [Db.view_modV, Db.view_setV, Store.put_self, Store.put_put, hI1.exp_none _ hd]
    simp only [Option.map_some, Val.abs, h2]
    rfl
  · rw [Db.view_some hd]
    cases v with
    | hash h =>
      simp only [wp_bind, wp_pure, wp_objPut]
      obtain ⟨h1, h2, m, h3, h4⟩ := hSetLoop_spec fvs h 0 (hI1.val _ _ hd)
      refine ⟨hI1.modV _ h1, rfl, ?_⟩
      rw [Db.view_modV, Db.view_some hd]
      simp only [Option.map_some, Val.abs, h2]
      rfl
    | str _ => simp [hI1, Val.abs, asHash, eWrong, isErr_rErr]
    | list _ => simp [hI1, Val.abs, asHash, eWrong, isErr_rErr]
    | set _ => simp [hI1, Val.abs, asHash, eWrong, isErr_rErr]

/-- An incomplete field/value list is an error and changes nothing. -/
theorem C26_hset_arity (as : List Slice) (hI : s.db.Inv) (h : as.length % 2 = 1 ∨ as.length < 2) :
    Runs env (command c b!"hset" (n :: k :: as)) s (fun r s' => IsErr r ∧ s' = s) ∧
    Runs env (command c b!"hmset" (n :: k :: as)) s (fun r s' => IsErr r ∧ s' = s) := by
  simp only [command_hset, command_hmset]
  constructor
  · simp only [hSetHash, Runs, List.length_cons]
    rw [if_pos (by omega)]; exact ⟨hI, isErr_rErr _, rfl⟩
  · simp only [hMSetHash, Runs, List.length_cons]
    rw [if_pos (by omega)]; exact ⟨hI, isErr_rErr _, rfl⟩

theorem hDelLoop_spec (fs : List Slice) (h : HashT) (res : Nat) (hw : (Val.hash h).WF) :
    (Val.hash (hDelLoop h res fs).1).WF ∧ mget (hDelLoop h res fs).1 = eraseAll (mget h) fs ∧
    ∃ m, CardIs m (fun x => x ∈ fs.map str ∧ (mget h x).isSome) ∧ (hDelLoop h res fs).2 = res + m := by
  induction fs generalizing h res with
  | nil => exact ⟨hw, by funext x; simp [hDelLoop, eraseAll], 0, ⟨[], ⟨by simp, by simp⟩, rfl⟩, rfl⟩
  | cons fd fs ih =>
    have hw1 : (Val.hash (hDel h (str fd)).1).WF := by
      unfold hDel; split
      · exact hw
      · exact mdel_keys_nodup hw _
    have hg : ∀ x, mget (hDel h (str fd)).1 x = if x = str fd then none else mget h x := by
      intro x
      unfold hDel; split
      · next hn => by_cases hx : x = str fd
                   · subst hx; simpa using hn
                   · simp [hx]
      · exact mget_mdel ..
    obtain ⟨i1, i2, m, ⟨l, ⟨hl1, hl2⟩, rfl⟩, i4⟩ := ih (hDel h (str fd)).1 (res + (hDel h (str fd)).2) hw1
    refine ⟨i1, ?_, ?_⟩
    · show mget (hDelLoop _ _ fs).1 = _
      rw [i2]
      funext x
      simp only [eraseAll, hg, List.map_cons, List.mem_cons]
      by_cases hx : x = str fd <;> by_cases hx' : x ∈ fs.map str <;> simp [hx, hx']
    · show ∃ m, _ ∧ (hDelLoop _ _ fs).2 = res + m
      simp only [hg] at hl2
      have hnl : str fd ∉ l := by rw [hl2]; simp
      rcases hp : mget h (str fd) with _ | v
      · refine ⟨l.length, ⟨l, ⟨hl1, fun x => ?_⟩, rfl⟩, ?_⟩
        · simp only [hl2, List.map_cons, List.mem_cons]
          by_cases hx : x = str fd
          · simp [hx, hp]
          · simp [hx]
        · rw [i4]; simp [hDel, hp]
      · refine ⟨l.length + 1, ⟨str fd :: l, ⟨List.nodup_cons.2 ⟨hnl, hl1⟩, fun x => ?_⟩, rfl⟩, ?_⟩
        · simp only [List.mem_cons, hl2, List.map_cons]
          by_cases hx : x = str fd
          · simp [hx, hp]
          · simp [hx]
        · rw [i4]; simp [hDel, hp]; omega

theorem hash_empty_iff (h : HashT) : hIsEmpty h = true ↔ ∀ x, mget h x = none := by
  cases h with
  | nil => simp [hIsEmpty]
  | cons p h =>
    simp only [hIsEmpty, List.length_cons]
    constructor
    · intro h'; simp at h'
    · intro h'; have := h' p.1; rw [mget_cons] at this; simp at this

/-- C26: HDEL removes the listed fields, returns how many of them were there, keeps the deadline, and
drops the key when no field is left. -/
theorem C26_hdel (fd : Slice) (fs : List Slice) (hI : s.db.Inv) :
    Runs env (command c b!"hdel" (n :: k :: fd :: fs)) s fun r s' =>
      match live env s (str k) (str k) with
      | none => r = replyInt 0 ∧ s'.db.view = live env s (str k)
      | some ⟨.hash f, ttl⟩ =>
        (∃ m : Nat, CardIs m (fun x => x ∈ (fd :: fs).map str ∧ (f x).isSome) ∧ r = replyInt m) ∧
        ((∃ x, eraseAll f (fd :: fs) x ≠ none) →
          s'.db.view = (live env s (str k)).put (str k) (some ⟨.hash (eraseAll f (fd :: fs)), ttl⟩)) ∧
        ((∀ x, eraseAll f (fd :: fs) x = none) → s'.db.view = (live env s (str k)).put (str k) none)
      | some _ => IsErr r ∧ s'.db.view = live env s (str k) := by
  simp only [command_hdel]
  simp only [hDelHash, Runs, wp_bind]
  refine wp_check env c _ s _ fun b s1 hc => ?_
  rw [hc.live]
  have hI1 := hc.inv hI
  cases b
  · simp only [Bool.false_eq_true, if_false, wp_withLock, wp_bind, wp_dictGet]
    rcases hd : s1.db.dict.get (str k) with _ | v
    · rw [Db.view_none hd]; exact ⟨hI1, rfl, rfl⟩
    · rw [Db.view_some hd]
      cases v with
      | hash h =>
        obtain ⟨h1, h2, m, h3, h4⟩ := hDelLoop_spec (fd :: fs) h 0 (hI1.val _ _ hd)
        simp only [wp_bind, wp_objPut, Val.abs]
        have hI2 := hI1.modV (str k) h1
        have hv2 : (s1.db.modV (str k) (.hash (hDelLoop h 0 (fd :: fs)).1)).view =
            s1.db.view.put (str k) (some ⟨.hash (eraseAll (mget h) (fd :: fs)), s1.db.exp.get (str k)⟩) := by
          rw [Db.view_modV, Db.view_some hd]; simp only [Option.map_some, Val.abs, h2]
        have he : hIsEmpty (hDelLoop h 0 (fd :: fs)).1 = true ↔ ∀ x, eraseAll (mget h) (fd :: fs) x = none := by
          rw [hash_empty_iff, h2]
        by_cases hem : hIsEmpty (hDelLoop h 0 (fd :: fs)).1 = true
        · simp only [hem, if_true, wp_bind, wp_dictDel, wp_deleteExpire, wp_pure]
          refine ⟨hI2.delBoth _, ⟨m, h3, by rw [h4]; simp [rInt]⟩, ?_, ?_⟩
          · rintro ⟨x, hx⟩; exact absurd (he.1 hem x) hx
          · intro _
            simp only [Db.view_delT, Db.view_delV, hv2, Store.put_put, Store.put_self, Option.map_none]
        · rw [if_neg hem]
          refine ⟨hI2, ⟨m, h3, by rw [h4]; simp [rInt]⟩, fun _ => hv2, fun hh => absurd (he.2 hh) hem⟩
      | str _ => simp [hd, hI1, Val.abs, asHash, eWrong, isErr_rErr]
      | list _ => simp [hd, hI1, Val.abs, asHash, eWrong, isErr_rErr]
      | set _ => simp [hd, hI1, Val.abs, asHash, eWrong, isErr_rErr]
  · rw [Db.view_none (hc.gone rfl)]; exact ⟨hI1, rfl, rfl⟩

/-! ### HINCRBY, HINCRBYFLOAT -/

/-- C27, the full statement for HINCRBY. -/
def C27_Statement : Prop :=
  ∀ (c : Cfg) (env : Env) (s : St) (n k fd i : Slice), s.db.Inv →
    Runs env (command c b!"hincrby" [n, k, fd, i]) s fun r s' =>
      (∀ f d v, asHash (live env s (str k) (str k)) = some f → IntArg (str i) d →
        (match f (str fd) with | none => v = 0 | some b => IntArg (str b) v) → InI64 (v + d) →
        r = replyInt (v + d) ∧ ∃ b, Canon b (v + d) ∧ s'.db.view = (live env s (str k)).put (str k)
          (some ⟨.hash (writeAll f [(fd, some b)]), ttlOf (live env s (str k) (str k))⟩)) ∧
      (¬ (∃ f d v, asHash (live env s (str k) (str k)) = some f ∧ IntArg (str i) d ∧
        (match f (str fd) with | none => v = 0 | some b => IntArg (str b) v) ∧ InI64 (v + d)) →
        IsErr r ∧ s'.db.view = live env s (str k))

theorem writeAll_single (f : Bytes → Option Slice) (fd v : Slice) :
    writeAll f [(fd, v)] = fun x => if x = str fd then some v else f x := by
  funext x
  simp only [writeAll, lastVal, List.reverse_cons, List.reverse_nil, List.nil_append, List.find?_cons, List.find?_nil]
  by_cases hx : str fd = x
  · simp [hx]
  · have : ¬ x = str fd := fun e => hx e.symm
    simp [hx, this]

theorem mset_writeAll (h : HashT) (fd v : Slice) : mget (mset h (str fd) v) = writeAll (mget h) [(fd, v)] := by
  rw [writeAll_single]; funext x; rw [mget_mset]

/-- C27 for HINCRBY: a well-formed request on a numeric (or missing) field adds the amount modulo 2^64 and
stores the canonical decimal; a rejected increment on an existing hash, a field that is not a number
and another kind of value are errors without change.  Missing: a sum outside the 64-bit range wraps, and a malformed
increment on an absent key leaves an empty hash behind (`C27_refuted`). -/
theorem C27_hincrby_partial (fd i : Slice) (hI : s.db.Inv) :
    Runs env (command c b!"hincrby" [n, k, fd, i]) s fun r s' =>
      (∀ f d v, asHash (live env s (str k) (str k)) = some f → IntArg (str i) d →
        (match f (str fd) with | none => v = 0 | some none => v = 0 | some (some b) => IntArg b v) →
        r = replyInt (Int.bmod (v + d) (2 ^ 64)) ∧ ∃ b, Canon b (Int.bmod (v + d) (2 ^ 64)) ∧
          s'.db.view = (live env s (str k)).put (str k)
            (some ⟨.hash (writeAll f [(fd, some b)]), ttlOf (live env s (str k) (str k))⟩)) ∧
      (∀ f, asHash (live env s (str k) (str k)) = some f → (∀ d, ¬ IntArg (str i) d) → IsErr r ∧
        (live env s (str k) (str k) ≠ none → s'.db.view = live env s (str k))) ∧
      (∀ f b, asHash (live env s (str k) (str k)) = some f → f (str fd) = some (some b) → (∀ v, ¬ IntArg b v) →
        IsErr r ∧ s'.db.view = live env s (str k)) ∧
      (asHash (live env s (str k) (str k)) = none → IsErr r ∧ s'.db.view = live env s (str k)) := by
  simp only [command_hincrby]
  simp only [hIncrByHash, Runs, wp_bind]
  refine wp_check env c _ s _ fun b s1 hc => ?_
  rw [hc.live]
  have hI1 := hc.inv hI
  simp only [wp_withLock, wp_bind, getOrCreate, wp_dictGet]
  rcases hd : s1.db.dict.get (str k) with _ | v
  · rw [Db.view_none hd]
    simp only [wp_bind, wp_dictSet, wp_pure]
    rcases ha : atoi (str i) with _ | d
    · refine ⟨hI1.setV _ (by simp [Val.WF]), ?_, fun f _ _ => ⟨isErr_rErr _, fun h => absurd rfl h⟩, ?_, by simp [asHash]⟩
      · intro f d v _ hd' _; rw [(atoi_iff _ _).2 hd'] at ha; cases ha
      · intro f b hf hfd; simp only [asHash, Option.some.injEq] at hf; subst hf; cases hfd
    · simp only [hIncrBy, hGet, mget_nil, Option.getD_none, wp_bind, wp_objPut, wp_pure]
      refine ⟨(hI1.setV _ (by simp [Val.WF])).modV _ (by simp [Val.WF, hSet, mset, mdel]), ?_, ?_, ?_, by simp [asHash]⟩
      · intro f d' v hf hd' hv
        simp only [asHash, Option.some.injEq] at hf; subst hf
        simp only at hv; subst hv
        have := hd'.2
        rw [(atoi_iff _ _).2 hd'] at ha; cases ha
        rw [Int.zero_add, bmod_of_inI64 this]
        refine ⟨rfl, _, fmtInt_canon _, ?_⟩
        rw [Db.view_modV, Db.view_setV, Store.put_self, Store.put_put, hI1.exp_none _ hd]
        simp only [Option.map_some, Val.abs, hSet, mset_writeAll]
        rfl
      · intro f _ h; exact absurd ((atoi_iff _ _).1 ha) (h d)
      · intro f b hf hfd; simp only [asHash, Option.some.injEq] at hf; subst hf; cases hfd
  · rw [Db.view_some hd]
    cases v with
    | hash h =>
      have hw := hI1.val _ _ hd
      simp only [wp_pure, Val.abs, asHash, Option.some.injEq]
      rcases ha : atoi (str i) with _ | d
      · refine ⟨hI1, ?_, fun f _ _ => ⟨isErr_rErr _, fun _ => rfl⟩, fun _ _ _ _ _ => ⟨isErr_rErr _, rfl⟩, by simp⟩
        intro f d v _ hd' _; rw [(atoi_iff _ _).2 hd'] at ha; cases ha
      · have hok : ∀ w : Int, (s1.db.modV (str k) (.hash (mset h (str fd) (some (fmtInt w))))).Inv ∧
            (s1.db.modV (str k) (.hash (mset h (str fd) (some (fmtInt w))))).view = s1.db.view.put (str k)
              (some ⟨.hash (writeAll (mget h) [(fd, some (fmtInt w))]), ttlOf (some ⟨.hash (mget h), s1.db.exp.get (str k)⟩)⟩) := by
          intro w
          refine ⟨hI1.modV _ (mset_keys_nodup hw _ _), ?_⟩
          rw [Db.view_modV, Db.view_some hd]
          simp only [Option.map_some, Val.abs, mset_writeAll]
          rfl
        have hnil : hGet h (str fd) = none → Wp env (match hIncrBy h (str fd) d with
              | none => pure (rErr b!"hash value is not an integer")
              | some (h', val) => do objPut (str k) (.hash h'); pure (rInt val)) s1 fun r s' =>
            (s'.db.Inv ∧ ∀ f d' v, mget h = f → IntArg (str i) d' →
              (match f (str fd) with | none => v = 0 | some none => v = 0 | some (some b) => IntArg b v) →
              r = replyInt (Int.bmod (v + d') (2 ^ 64)) ∧ ∃ b, Canon b (Int.bmod (v + d') (2 ^ 64)) ∧
                s'.db.view = s1.db.view.put (str k) (some ⟨.hash (writeAll f [(fd, some b)]),
                  ttlOf (some ⟨.hash (mget h), s1.db.exp.get (str k)⟩)⟩)) := by
          intro hg
          simp only [hIncrBy, hg, wp_bind, wp_objPut, wp_pure, hSet]
          refine ⟨(hok d).1, ?_⟩
          rintro f d' v rfl hd' hv
          have := hd'.2
          rw [(atoi_iff _ _).2 hd'] at ha; cases ha
          have hv0 : v = 0 := by
            rw [hGet_eq] at hg
            rcases hm : mget h (str fd) with _ | _ | b
            · rw [hm] at hv; exact hv
            · rw [hm] at hv; exact hv
            · rw [hm] at hg; cases hg
          subst hv0
          rw [Int.zero_add, bmod_of_inI64 this]
          exact ⟨rfl, _, fmtInt_canon _, (hok _).2⟩
        rcases hg : hGet h (str fd) with _ | bv
        · refine Wp.mono (hnil hg) ?_
          rintro r s' ⟨g1, g2⟩
          refine ⟨g1, g2, fun f _ h => absurd ((atoi_iff _ _).1 ha) (h d), ?_, by simp⟩
          rintro f b rfl hb
          rw [hGet_eq, hb] at hg; cases hg
        · have hm : mget h (str fd) = some (some bv) := by
            rw [hGet_eq] at hg
            rcases hm : mget h (str fd) with _ | _ | b
            · rw [hm] at hg; cases hg
            · rw [hm] at hg; cases hg
            · rw [hm] at hg; cases hg; rfl
          simp only [hIncrBy, hg]
          rcases hav : atoi bv with _ | vv
          · refine ⟨hI1, ?_, fun f _ h => absurd ((atoi_iff _ _).1 ha) (h d), fun _ _ _ _ _ => ⟨isErr_rErr _, rfl⟩, by simp⟩
            rintro f d' v rfl _ hv
            rw [hm] at hv
            rw [(atoi_iff _ _).2 hv] at hav; cases hav
          · simp only [wp_bind, wp_objPut, wp_pure, hSet]
            refine ⟨(hok _).1, ?_, fun f _ h => absurd ((atoi_iff _ _).1 ha) (h d), ?_, by simp⟩
            · rintro f d' v rfl hd' hv
              rw [hm] at hv
              rw [(atoi_iff _ _).2 hd'] at ha; cases ha
              rw [(atoi_iff _ _).2 hv] at hav; cases hav
              rw [← wrap64_eq_bmod]
              exact ⟨rfl, _, fmtInt_canon _, (hok _).2⟩
            · rintro f b rfl hb hno
              rw [hm] at hb; cases hb
              exact absurd ((atoi_iff _ _).1 hav) (hno vv)
    | str _ => simp [hI1, Val.abs, asHash, eWrong, isErr_rErr]
    | list _ => simp [hI1, Val.abs, asHash, eWrong, isErr_rErr]
    | set _ => simp [hI1, Val.abs, asHash, eWrong, isErr_rErr]

/-- The two ways C27 fails: `HINCRBY k f abc` on an absent key leaves an empty hash behind. -/
theorem C27_refuted : ¬ C27_Statement := by
  intro h
  have h1 := h Witness.cfg Witness.env (Witness.st []) none (some b!"k") (some b!"f") (some b!"abc")
    (Witness.st_inv _ (by decide))
  obtain ⟨r, s', _, hv, _, hr⟩ := Witness.after_of_runs (k := b!"k") (v := some (.hash [])) (t := none) h1
    (by decide +kernel)
  obtain ⟨_, hr⟩ := hr (by
    rintro ⟨f, d, v, _, hd, _⟩
    have := (atoi_iff _ _).2 hd
    revert this
    rw [show atoi (str (some b!"abc")) = none by decide +kernel]
    simp)
  rw [hr, show str (some b!"k") = b!"k" from rfl, Witness.live_none _ _ (by decide +kernel)] at hv
  cases hv

/-- C27: the sum wraps around, so the exact amount is not added. -/
theorem C27_overflow_wraps : Witness.reply (command Witness.cfg b!"hincrby" [none, some b!"k", some b!"f", some b!"1"])
    (Witness.st [(b!"k", .hash [(b!"f", some b!"9223372036854775807")], none)]) = .ok (rInt (-2 ^ 63)) := by
  decide +kernel

example : Witness.reply (command Witness.cfg b!"hincrby" [none, some b!"k", some b!"f", some b!"-5"])
    (Witness.st [(b!"k", .hash [(b!"f", some b!"12")], none)]) = .ok (rInt 7) := by decide +kernel

/-- C27 for HINCRBYFLOAT: well-formed requests store and return the formatted sum; a field that is not a number and
another kind of value are errors without change.  Missing: as for HINCRBY, a malformed increment on an absent
key leaves an empty hash. -/
theorem C27_hincrbyfloat_partial (fd i : Slice) (hI : s.db.Inv) :
    Runs env (command c b!"hincrbyfloat" [n, k, fd, i]) s fun r s' =>
      match asHash (live env s (str k) (str k)) with
      | none => IsErr r ∧ s'.db.view = live env s (str k)
      | some f =>
        match c.fl.parse (i.getD []) with
        | none => IsErr r ∧ (live env s (str k) (str k) ≠ none → s'.db.view = live env s (str k))
        | some x =>
          match (f (str fd)).getD none with
          | none => r = replyBulk (some (c.fl.fmt x)) ∧ s'.db.view = (live env s (str k)).put (str k)
              (some ⟨.hash (writeAll f [(fd, some (c.fl.fmt x))]), ttlOf (live env s (str k) (str k))⟩)
          | some b =>
            match c.fl.parse b with
            | none => IsErr r ∧ s'.db.view = live env s (str k)
            | some y => r = replyBulk (some (c.fl.fmt (c.fl.add y x))) ∧
                s'.db.view = (live env s (str k)).put (str k)
                  (some ⟨.hash (writeAll f [(fd, some (c.fl.fmt (c.fl.add y x)))]),
                    ttlOf (live env s (str k) (str k))⟩) := by
  simp only [command_hincrbyfloat]
  simp only [hIncrByFloatHash, hIncrByFloatHash.eFloat, Runs, wp_bind]
  refine wp_check env c _ s _ fun b s1 hc => ?_
  rw [hc.live]
  have hI1 := hc.inv hI
  simp only [wp_withLock, wp_bind, getOrCreate, wp_dictGet]
  rw [show i.getD [] = str i from rfl]
  rcases hd : s1.db.dict.get (str k) with _ | v
  · rw [Db.view_none hd]
    simp only [wp_bind, wp_dictSet, wp_pure, asHash, Option.getD_none]
    rcases c.fl.parse (str i) with _ | x
    · exact ⟨hI1.setV _ (by simp [Val.WF]), isErr_rErr _, fun h => absurd rfl h⟩
    · simp only [hIncrByFloat, hGet, mget_nil, Option.getD_none, wp_bind, wp_objPut, wp_pure]
      refine ⟨(hI1.setV _ (by simp [Val.WF])).modV _ (by simp [Val.WF, hSet, mset, mdel]), rfl, ?_⟩
      rw [Db.view_modV, Db.view_setV, Store.put_self, Store.put_put, hI1.exp_none _ hd]
      simp only [Option.map_some, Val.abs, hSet, mset_writeAll]
      rfl
  · rw [Db.view_some hd]
    cases v with
    | hash h =>
      have hw := hI1.val _ _ hd
      have hok : ∀ w : Bytes, (s1.db.modV (str k) (.hash (mset h (str fd) (some w)))).Inv ∧
          (s1.db.modV (str k) (.hash (mset h (str fd) (some w)))).view = s1.db.view.put (str k)
            (some ⟨.hash (writeAll (mget h) [(fd, some w)]), ttlOf (some ⟨.hash (mget h), s1.db.exp.get (str k)⟩)⟩) := by
        intro w
        refine ⟨hI1.modV _ (mset_keys_nodup hw _ _), ?_⟩
        rw [Db.view_modV, Db.view_some hd]
        simp only [Option.map_some, Val.abs, mset_writeAll]
        rfl
      simp only [wp_pure, Val.abs, asHash, ← hGet_eq]
      rcases c.fl.parse (str i) with _ | x
      · exact ⟨hI1, isErr_rErr _, fun _ => rfl⟩
      · rcases hg : hGet h (str fd) with _ | bv
        · simp only [hIncrByFloat, hg, wp_bind, wp_objPut, wp_pure, hSet]
          exact ⟨(hok _).1, rfl, (hok _).2⟩
        · simp only [hIncrByFloat, hg]
          rcases c.fl.parse bv with _ | y
          · exact ⟨hI1, isErr_rErr _, rfl⟩
          · simp only [wp_bind, wp_objPut, wp_pure, hSet]
            exact ⟨(hok _).1, rfl, (hok _).2⟩
    | str _ => simp [hI1, Val.abs, asHash, eWrong, isErr_rErr]
    | list _ => simp [hI1, Val.abs, asHash, eWrong, isErr_rErr]
    | set _ => simp [hI1, Val.abs, asHash, eWrong, isErr_rErr]

/-! ### HSETNX -/

/-- C28, the full statement. -/
def C28_Statement : Prop :=
  ∀ (c : Cfg) (env : Env) (s : St) (n k fd v : Slice), s.db.Inv →
    Runs env (command c b!"hsetnx" [n, k, fd, v]) s fun r s' =>
      match asHash (live env s (str k) (str k)) with
      | none => IsErr r ∧ s'.db.view = live env s (str k)
      | some f =>
        if (f (str fd)).isSome then r = replyInt 0 ∧ s'.db.view = live env s (str k)
        else r = replyInt 1 ∧ s'.db.view = (live env s (str k)).put (str k)
          (some ⟨.hash (writeAll f [(fd, v)]), ttlOf (live env s (str k) (str k))⟩)

/-- C28: on an absent key the field is set and the answer is 1; a field that exists is never changed (answer 0).
Missing: on an existing hash without the field nothing is set and the answer is 0, and another kind of value is
answered by 0 instead of an error (`C28_refuted`). -/
theorem C28_hsetnx_partial (fd v : Slice) (hI : s.db.Inv) :
    Runs env (command c b!"hsetnx" [n, k, fd, v]) s fun r s' =>
      match live env s (str k) (str k) with
      | some _ => r = replyInt 0 ∧ s'.db.view = live env s (str k)
      | none => r = replyInt 1 ∧ s'.db.view = (live env s (str k)).put (str k)
          (some ⟨.hash (writeAll (fun _ => none) [(fd, v)]), none⟩) := by
  simp only [command_hsetnx]
  simp only [hSetNxHash, Runs, wp_bind]
  refine wp_check env c _ s _ fun b s1 hc => ?_
  rw [hc.live]
  have hI1 := hc.inv hI
  simp only [wp_withLock, wp_bind, wp_dictGet]
  rcases hd : s1.db.dict.get (str k) with _ | v
  · simp only [Db.view_none hd, wp_bind, wp_dictSet, wp_pure, wp_objPut]
    refine ⟨(hI1.setV _ (by simp [Val.WF])).modV _ (by simp [Val.WF, hSet, mset, mdel]), rfl, ?_⟩
    rw [Db.view_modV, Db.view_setV, Store.put_self, Store.put_put, hI1.exp_none _ hd]
    simp only [Option.map_some, Val.abs, hSet, mset_writeAll]
    rfl
  · rw [Db.view_some hd]; exact ⟨hI1, rfl, rfl⟩

/-- `HSETNX k g 2` on a hash with only the field `f`: answer 0, nothing set. -/
theorem C28_refuted : ¬ C28_Statement := by
  intro h
  let s := Witness.st [(b!"k", .hash [(b!"f", some b!"1")], none)]
  have h1 := h Witness.cfg Witness.env s none (some b!"k") (some b!"g") (some b!"2") (Witness.st_inv _ (by decide))
  obtain ⟨s', _, hr⟩ := Witness.reply_of_runs (d := rInt 0) h1 (by decide +kernel)
  rw [show str (some b!"k") = b!"k" from rfl,
    Witness.live_at s _ (.hash [(b!"f", some b!"1")]) none (by decide +kernel) (by decide +kernel) (by simp)] at hr
  simp only [Val.abs, asHash] at hr
  rw [show mget [(b!"f", some b!"1")] (str (some b!"g")) = none by decide] at hr
  exact absurd hr.1 (by simp [rInt])

example : Witness.after (command Witness.cfg b!"hsetnx" [none, some b!"k", some b!"f", some b!"v"]) (Witness.st []) b!"k" =
    .ok (some (.hash [(b!"f", some b!"v")]), none) := by decide +kernel

/-! ### HRANDFIELD -/

end
namespace Spec

/-- A list `l` is an acceptable answer to "pick `d` random elements of `m`": for `d ≥ 0` distinct elements, `d` of
them or all if there are fewer; for `d < 0` exactly `-d` elements with repetition. -/
def RandomPick (m : Bytes → Prop) (d : Int) (l : List Bytes) : Prop :=
  (∀ x ∈ l, m x) ∧
  (0 ≤ d → l.Nodup ∧ ∀ card : Nat, CardIs card m → l.length = min d.toNat card) ∧
  (d < 0 → l.length = (-d).toNat)

end Spec

theorem wp_randLoop (env : Env) (keys : List Bytes) (hne : keys ≠ []) (n : Nat) (s : St) :
    Wp env (randLoop keys n) s fun l s' => s'.db = s.db ∧ s.tick ≤ s'.tick ∧ l.length = n ∧ ∀ x ∈ l, x ∈ keys := by
  induction n generalizing s with
  | zero => simp [randLoop]
  | succ n ih =>
    simp only [randLoop, wp_bind, wp_order]
    have hp := env.ord_perm s.tick keys
    rcases hk : env.ord s.tick keys with _ | ⟨y, ys⟩
    · rw [hk] at hp; exact absurd hp.symm.eq_nil hne
    · simp only [wp_bind]
      refine Wp.mono (ih _) ?_
      rintro l s' ⟨h1, h2, h3, h4⟩
      simp only [wp_pure]
      refine ⟨h1, by simp only at h2; omega, by simp [h3], ?_⟩
      intro x hx
      rcases List.mem_cons.1 hx with rfl | hx
      · exact hp.subset (by rw [hk]; simp)
      · exact h4 x hx

/-- The random choice of `Random`, for any keys. -/
theorem wp_randomKeys (c : Cfg) (env : Env) (s : St) (keys : List Bytes) (m : Bytes → Prop) (d : Int) (elem : Nat)
    (hk : Enumerates keys m) (hne : keys ≠ []) (hd : InI64 d) (hmin : d ≠ -2 ^ 63) (hok : d < 0 → c.makeOk elem (-d) = true) :
    Wp env (randomKeys c keys d elem) s fun l s' => s'.db = s.db ∧ s.tick ≤ s'.tick ∧ RandomPick m d l := by
  have hcard : ∀ card : Nat, CardIs card m → card = keys.length := fun card h => h.unique ⟨keys, hk, rfl⟩
  have hlen : keys.length ≠ 0 := by simpa using hne
  unfold randomKeys
  by_cases h0 : d = 0
  · subst h0
    simp [RandomPick]
  · rw [if_neg (by simp [h0, hlen])]
    by_cases hpos : d > 0
    · rw [if_pos hpos]
      simp only [wp_bind, wp_order, wp_pure]
      have hp := env.ord_perm s.tick keys
      refine ⟨trivial, by omega, ?_, ?_, fun h => by omega⟩
      · intro x hx; exact (hk.2 x).1 (hp.subset (List.take_subset _ _ hx))
      · intro _
        refine ⟨List.Nodup.sublist (List.take_sublist _ _) (hp.nodup_iff.2 hk.1), ?_⟩
        intro card hc
        rw [hcard card hc, List.length_take, hp.length_eq]
        split <;> omega
    · rw [if_neg hpos]
      have hlt : d < 0 := by omega
      have hok := hok hlt
      have hw : wrap64 (-d) = -d := by
        rw [wrap64_eq_bmod, bmod_of_inI64]
        unfold InI64 at hd ⊢; omega
      rw [hw, hok]
      simp only [Bool.not_true, Bool.false_eq_true, if_false]
      refine Wp.mono (wp_randLoop env keys hne _ s) ?_
      rintro l s' ⟨h1, h2, h3, h4⟩
      exact ⟨h1, h2, fun x hx => (hk.2 x).1 (h4 x hx), fun h => by omega, fun _ => h3⟩

section
variable (c : Cfg) (env : Env) (s : St) (n k : Slice)

theorem wp_hRandFieldBody (key : Bytes) (d : Int) (wv : Bool) (hI : s.db.Inv) (hd : InI64 d) :
    (match s.db.view key with
      | none => Wp env (hRandFieldBody c key d wv) s fun r s' => s'.db.Inv ∧ r = replyNil ∧ s'.db = s.db
      | some ⟨.hash f, _⟩ => (∃ x, (f x).isSome) → d ≠ -2 ^ 63 → (d < 0 → c.makeOk (if wv then 24 else 16) (-d) = true) →
          Wp env (hRandFieldBody c key d wv) s fun r s' => s'.db.Inv ∧ s'.db = s.db ∧
            ∃ l, RandomPick (fun x => (f x).isSome) d l ∧
              if d = 1 then ∃ x, l = [x] ∧ r = replyBulk (some x)
              else r = replyBulks (if wv then l.flatMap (fun x => [some x, (f x).getD none]) else l.map some)
      | some _ => Wp env (hRandFieldBody c key d wv) s fun r s' => s'.db.Inv ∧ IsErr r ∧ s'.db = s.db) := by
  rcases hdd : s.db.dict.get key with _ | v
  · simp [Db.view_none hdd, hRandFieldBody, hdd, hI, rNil]
  · rw [Db.view_some hdd]
    cases v with
    | hash h =>
      simp only [Val.abs]
      rintro ⟨x, hx⟩ hmin hok
      have hen := hash_enum (hI.val _ _ hdd)
      have hne : h.map (·.1) ≠ [] := by
        intro h0
        have := (hen.2 x).2 hx
        rw [h0] at this; cases this
      simp only [hRandFieldBody, wp_bind, wp_dictGet, hdd]
      by_cases h1 : d = 1
      · subst h1
        simp only [if_true, wp_bind]
        refine Wp.mono (wp_randomKeys c env s _ _ 1 16 hen hne hd (by decide) (by omega)) ?_
        rintro l s' ⟨g1, _, g3⟩
        have hl : l.length = 1 := by
          rw [(g3.2.1 (by omega)).2 _ ⟨_, hen, rfl⟩]
          have : (h.map (·.1)).length ≠ 0 := by simpa using hne
          omega
        obtain ⟨y, rfl⟩ := List.length_eq_one_iff.1 hl
        simp only [wp_pure]
        exact ⟨by rw [g1]; exact hI, g1, [y], g3, y, rfl, rfl⟩
      · simp only [h1, if_false]
        cases wv
        · simp only [Bool.false_eq_true, if_false, wp_bind] at hok ⊢
          refine Wp.mono (wp_randomKeys c env s _ _ d 16 hen hne hd hmin hok) ?_
          rintro l s' ⟨g1, _, g3⟩
          simp only [wp_pure]
          exact ⟨by rw [g1]; exact hI, g1, l, g3, by simp [rArr, Function.comp_def]⟩
        · simp only [if_true, wp_bind] at hok ⊢
          refine Wp.mono (wp_randomKeys c env s _ _ d 24 hen hne hd hmin hok) ?_
          rintro l s' ⟨g1, _, g3⟩
          simp only [wp_pure]
          exact ⟨by rw [g1]; exact hI, g1, l, g3, by simp [rArr, List.map_flatMap, hGet_eq]⟩
    | str _ => simp [hRandFieldBody, hdd, hI, Val.abs, eWrong, isErr_rErr]
    | list _ => simp [hRandFieldBody, hdd, hI, Val.abs, eWrong, isErr_rErr]
    | set _ => simp [hRandFieldBody, hdd, hI, Val.abs, eWrong, isErr_rErr]

/-- C29, the full statement for the two forms with a count. -/
def C29_Statement : Prop :=
  ∀ (c : Cfg) (env : Env) (s : St) (n k i : Slice) (d : Int), s.db.Inv → IntArg (str i) d →
    (∀ f ttl, live env s (str k) (str k) = some ⟨.hash f, ttl⟩ →
      Runs env (command c b!"hrandfield" [n, k, i]) s fun r s' => s'.db.view = live env s (str k) ∧
        ∃ l, RandomPick (fun x => (f x).isSome) d l ∧ r = replyBulks (l.map some)) ∧
    ∀ w f ttl, CaseEq (str w) b!"withvalues" → live env s (str k) (str k) = some ⟨.hash f, ttl⟩ →
      Runs env (command c b!"hrandfield" [n, k, i, w]) s fun r s' => s'.db.view = live env s (str k) ∧
        ∃ l, RandomPick (fun x => (f x).isSome) d l ∧ r = replyBulks (l.flatMap fun x => [some x, (f x).getD none])

/-- What HRANDFIELD answers for a hash with a field, given a permitted count `d`. -/
def HRandOK (f : Bytes → Option Slice) (d : Int) (wv : Bool) (r : Data) : Prop :=
  ∃ l, RandomPick (fun x => (f x).isSome) d l ∧
    if d = 1 then ∃ x, l = [x] ∧ r = replyBulk (some x)
    else r = replyBulks (if wv then l.flatMap (fun x => [some x, (f x).getD none]) else l.map some)

/-- C29.  Missing: a count of 1 is answered by a single bulk string without its value even with WITHVALUES; the
smallest 64-bit count, a count whose allocation the runtime refuses, and an empty hash crash the connection
(`C29_refuted`, `C29_min_panics`, `C29_empty_panics`). -/
theorem C29_hrandfield_partial (i : Slice) (d : Int) (hI : s.db.Inv) (hi : IntArg (str i) d) (hmin : d ≠ -2 ^ 63) :
    ((d < 0 → c.makeOk 16 (-d) = true) → (∀ f ttl, live env s (str k) (str k) = some ⟨.hash f, ttl⟩ → ∃ x, (f x).isSome) →
      Runs env (command c b!"hrandfield" [n, k, i]) s fun r s' => s'.db.view = live env s (str k) ∧
        match live env s (str k) (str k) with
        | none => r = replyNil
        | some ⟨.hash f, _⟩ => HRandOK f d false r
        | some _ => IsErr r) ∧
    ∀ w, CaseEq (str w) b!"withvalues" → (d < 0 → c.makeOk 24 (-d) = true) →
      (∀ f ttl, live env s (str k) (str k) = some ⟨.hash f, ttl⟩ → ∃ x, (f x).isSome) →
      Runs env (command c b!"hrandfield" [n, k, i, w]) s fun r s' => s'.db.view = live env s (str k) ∧
        match live env s (str k) (str k) with
        | none => r = replyNil
        | some ⟨.hash f, _⟩ => HRandOK f d true r
        | some _ => IsErr r := by
  simp only [command_hrandfield]
  have key : ∀ wv, (d < 0 → c.makeOk (if wv then 24 else 16) (-d) = true) →
      (∀ f ttl, live env s (str k) (str k) = some ⟨.hash f, ttl⟩ → ∃ x, (f x).isSome) → ∀ b s1,
      Checked env s (str k) b s1 → Wp env (if b = true then pure rNil else withRLock c (str k) (hRandFieldBody c (str k) d wv)) s1
        fun r s' => s'.db.Inv ∧ s'.db.view = live env s (str k) ∧
        match live env s (str k) (str k) with
        | none => r = replyNil
        | some ⟨.hash f, _⟩ => HRandOK f d wv r
        | some _ => IsErr r := by
    intro wv hok hne b s1 hc
    rw [hc.live] at hne ⊢
    have hI1 := hc.inv hI
    cases b
    · simp only [Bool.false_eq_true, if_false, wp_withRLock]
      have hb := wp_hRandFieldBody c env s1 (str k) d wv hI1 hi.2
      rcases hv : s1.db.view (str k) with _ | ⟨v, ttl⟩
      · rw [hv] at hb
        exact Wp.mono hb fun r s' h => ⟨h.1, by rw [h.2.2], h.2.1⟩
      · rw [hv] at hb
        cases v with
        | hash f => exact Wp.mono (hb (hne f ttl hv) hmin hok) fun r s' h => ⟨h.1, by rw [h.2.1], h.2.2⟩
        | str _ => exact Wp.mono hb fun r s' h => ⟨h.1, by rw [h.2.2], h.2.1⟩
        | list _ => exact Wp.mono hb fun r s' h => ⟨h.1, by rw [h.2.2], h.2.1⟩
        | set _ => exact Wp.mono hb fun r s' h => ⟨h.1, by rw [h.2.2], h.2.1⟩
    · rw [Db.view_none (hc.gone rfl)]; exact ⟨hI1, rfl, rfl⟩
  constructor
  · intro hok hne
    simp only [hRandFieldHash, Runs, wp_bind]
    refine wp_check env c _ s _ fun b s1 hc => ?_
    rw [(atoi_iff _ _).2 hi]
    exact key false hok hne b s1 hc
  · intro w hw hok hne
    simp only [hRandFieldHash, Runs, wp_bind]
    refine wp_check env c _ s _ fun b s1 hc => ?_
    rw [(atoi_iff _ _).2 hi]
    simp only [toLower_of_caseEq hw, ne_eq, not_true_eq_false, if_false]
    exact key true hok hne b s1 hc

/-- C29 without a count: one existing field. -/
theorem C29_hrandfield_one (hI : s.db.Inv)
    (hne : ∀ f ttl, live env s (str k) (str k) = some ⟨.hash f, ttl⟩ → ∃ x, (f x).isSome) :
    Runs env (command c b!"hrandfield" [n, k]) s fun r s' => s'.db.view = live env s (str k) ∧
      match live env s (str k) (str k) with
      | none => r = replyNil
      | some ⟨.hash f, _⟩ => ∃ x, (f x).isSome ∧ r = replyBulk (some x)
      | some _ => IsErr r := by
  simp only [command_hrandfield]
  simp only [hRandFieldHash, Runs, wp_bind]
  refine wp_check env c _ s _ fun b s1 hc => ?_
  rw [hc.live] at hne ⊢
  have hI1 := hc.inv hI
  cases b
  · simp only [Bool.false_eq_true, if_false, wp_withRLock]
    have hb := wp_hRandFieldBody c env s1 (str k) 1 false hI1 (by unfold InI64; omega)
    rcases hv : s1.db.view (str k) with _ | ⟨v, ttl⟩
    · rw [hv] at hb
      exact Wp.mono hb fun r s' h => ⟨h.1, by rw [h.2.2], h.2.1⟩
    · rw [hv] at hb
      cases v with
      | hash f =>
        refine Wp.mono (hb (hne f ttl hv) (by decide) (by omega)) fun r s' h => ⟨h.1, by rw [h.2.1], ?_⟩
        obtain ⟨l, h1, x, rfl, h2⟩ := h.2.2
        exact ⟨x, h1.1 x (by simp), h2⟩
      | str _ => exact Wp.mono hb fun r s' h => ⟨h.1, by rw [h.2.2], h.2.1⟩
      | list _ => exact Wp.mono hb fun r s' h => ⟨h.1, by rw [h.2.2], h.2.1⟩
      | set _ => exact Wp.mono hb fun r s' h => ⟨h.1, by rw [h.2.2], h.2.1⟩
  · rw [Db.view_none (hc.gone rfl)]; exact ⟨hI1, rfl, rfl⟩

/-- C29: a malformed count or option on a live key is an error; nothing changes. -/
theorem C29_hrandfield_malformed (i w : Slice) (hI : s.db.Inv)
    (h : (∀ d, ¬ IntArg (str i) d) ∨ toLower (str w) ≠ b!"withvalues") :
    Runs env (command c b!"hrandfield" [n, k, i, w]) s fun r s' => s'.db.view = live env s (str k) ∧
      (IsErr r ∨ live env s (str k) (str k) = none) := by
  simp only [command_hrandfield]
  simp only [hRandFieldHash, Runs, wp_bind]
  refine wp_check env c _ s _ fun b s1 hc => ?_
  rw [hc.live]
  have hI1 := hc.inv hI
  cases b
  · simp only [Bool.false_eq_true, if_false]
    rcases ha : atoi (str i) with _ | d
    · exact ⟨hI1, rfl, .inl (isErr_rErr _)⟩
    · have hw : toLower (str w) ≠ b!"withvalues" := by
        rcases h with h | h
        · exact absurd ((atoi_iff _ _).1 ha) (h d)
        · exact h
      simp only [ne_eq, hw, not_false_eq_true, if_true]
      exact ⟨hI1, rfl, .inl (isErr_rErr _)⟩
  · exact ⟨hI1, rfl, .inr (Db.view_none (hc.gone rfl))⟩

/-- The smallest count crashes: its negation is itself. -/
theorem C29_min_panics : Witness.reply (command Witness.cfg b!"hrandfield" [none, some b!"k", some b!"-9223372036854775808"])
    (Witness.st [(b!"k", .hash [(b!"f", some b!"1")], none)]) = .error .makeSlice := by decide +kernel

/-- An empty hash (left behind by a rejected HINCRBY) crashes HRANDFIELD. -/
theorem C29_empty_panics : Witness.reply (command Witness.cfg b!"hrandfield" [none, some b!"k"])
    (Witness.st [(b!"k", .hash [], none)]) = .error .indexOutOfRange := by decide +kernel

theorem C29_refuted : ¬ C29_Statement := by
  intro h
  let s := Witness.st [(b!"k", .hash [(b!"f", some b!"1")], none)]
  refine Witness.not_runs_of_fault (s := s) (f := .makeSlice) C29_min_panics
    ((h Witness.cfg Witness.env s none (some b!"k") (some b!"-9223372036854775808") (-2 ^ 63)
      (Witness.st_inv _ (by decide)) ((atoi_iff _ _).1 (by decide +kernel))).1 _ none
      (Witness.live_at s _ (.hash [(b!"f", some b!"1")]) none (by decide +kernel) (by decide +kernel) (by simp)))

example : Witness.reply (command Witness.cfg b!"hrandfield" [none, some b!"k", some b!"-3", some b!"WithValues"])
    (Witness.st [(b!"k", .hash [(b!"f", some b!"1"), (b!"g", some b!"2")], none)]) =
    .ok (rArr [.bulk (some b!"f"), .bulk (some b!"1"), .bulk (some b!"f"), .bulk (some b!"1"),
      .bulk (some b!"f"), .bulk (some b!"1")]) := by decide +kernel

end

/-! ### Instances -/

example : Witness.reply (command Witness.cfg b!"hset" [none, some b!"k", some b!"f", some b!"1", some b!"g", some b!"2", some b!"f", some b!"3"])
    (Witness.st [(b!"k", .hash [(b!"g", some b!"0")], some 200)]) = .ok (rInt 1) := by decide +kernel
example : Witness.after (command Witness.cfg b!"hset" [none, some b!"k", some b!"f", some b!"1", some b!"g", some b!"2", some b!"f", some b!"3"])
    (Witness.st [(b!"k", .hash [(b!"g", some b!"0")], some 200)]) b!"k" =
    .ok (some (.hash [(b!"f", some b!"3"), (b!"g", some b!"2")]), some 200) := by decide +kernel
example : Witness.after (command Witness.cfg b!"hdel" [none, some b!"k", some b!"f", some b!"g", some b!"f"])
    (Witness.st [(b!"k", .hash [(b!"g", some b!"0"), (b!"f", some b!"1")], some 200)]) b!"k" = .ok (none, none) := by
  decide +kernel
example : Witness.reply (command Witness.cfg b!"hdel" [none, some b!"k", some b!"f", some b!"x", some b!"f"])
    (Witness.st [(b!"k", .hash [(b!"g", some b!"0"), (b!"f", some b!"1")], some 200)]) = .ok (rInt 1) := by decide +kernel
example : Witness.reply (command Witness.cfg b!"hgetall" [none, some b!"k"])
    (Witness.st [(b!"k", .hash [(b!"g", some b!"0"), (b!"f", some b!"1")], none)]) =
    .ok (rArr [.bulk (some b!"g"), .bulk (some b!"0"), .bulk (some b!"f"), .bulk (some b!"1")]) := by decide +kernel
example : Witness.reply (command Witness.cfg b!"hmget" [none, some b!"k", some b!"f", some b!"x"])
    (Witness.st [(b!"k", .hash [(b!"f", some b!"1")], none)]) = .ok (rArr [.bulk (some b!"1"), .bulk none]) := by
  decide +kernel

end GRedis
