import Verif.Lib.Disc
import Verif.Props.Wire
import Verif.Model.Server
/-
Every command follows the access discipline: it touches only the keys it names, under their locks, and its replies are
well formed (used for C03, C42, C49, C50, C60).
-/
set_option linter.unusedSimpArgs false
namespace GRedis
open Prog Spec

instance (s : Bytes) : Decidable (OneLine s) := inferInstanceAs (Decidable (∀ c ∈ s, _))

/-! ### Clean replies -/

@[simp] theorem clean_rInt (i : Int) : (rInt i).Clean := trivial
@[simp] theorem clean_rBulk (b : Slice) : (rBulk b).Clean := trivial
@[simp] theorem clean_rNil : rNil.Clean := trivial
@[simp] theorem clean_rNilArr : rNilArr.Clean := trivial
@[simp] theorem clean_rOK : rOK.Clean := by show OneLine _; decide
@[simp] theorem clean_eArgs : eArgs.Clean := by show OneLine _; decide
@[simp] theorem clean_eInt : eInt.Clean := by show OneLine _; decide
@[simp] theorem clean_eSyntax : eSyntax.Clean := by show OneLine _; decide
@[simp] theorem clean_eWrong : eWrong.Clean := by show OneLine _; decide
@[simp] theorem clean_eNoKey : eNoKey.Clean := by show OneLine _; decide
@[simp] theorem clean_eNotStr : eNotStr.Clean := by show OneLine _; decide
@[simp] theorem clean_eNotStrSet : eNotStrSet.Clean := by show OneLine _; decide
@[simp] theorem clean_eFloat : eFloat.Clean := by show OneLine _; decide
@[simp] theorem clean_ePositive : ePositive.Clean := by show OneLine _; decide
@[simp] theorem clean_eRank : eRank.Clean := by show OneLine _; decide +kernel
@[simp] theorem clean_eFloatH : hIncrByFloatHash.eFloat.Clean := by show OneLine _; decide
theorem clean_rErr {m : Bytes} (h : OneLine m) : (rErr m).Clean := h
theorem clean_rSimple {m : Bytes} (h : OneLine m) : (rSimple m).Clean := h
@[simp] theorem clean_rArr (xs : List Item) : (rArr xs).Clean ↔ ∀ x ∈ xs, x.Clean := Iff.rfl
@[simp] theorem clean_typeName (v : Val) : (rSimple (typeName v)).Clean := by
  show OneLine _
  cases v <;> (dsimp only [typeName]; decide)
theorem clean_flatMap {α : Type} {f : α → List Item} {l : List α} (h : ∀ a, ∀ x ∈ f a, x.Clean) : (rArr (l.flatMap f)).Clean := by
  intro x hx
  obtain ⟨a, _, ha⟩ := List.mem_flatMap.1 hx
  exact h a x ha
@[simp] theorem clean_bulk (b : Slice) : (Item.bulk b).Clean := trivial
@[simp] theorem clean_int (i : Int) : (Item.int i).Clean := trivial
@[simp] theorem clean_lPosReply (l : ListT) (el : Slice) (o : PosOpts) : (lPosReply l el o).Clean := by
  unfold lPosReply
  dsimp only
  repeat' split
  all_goals simp
@[simp] theorem clean_appendedArr (ms : List Bytes) : (appendedArr ms).Clean := by
  unfold appendedArr; split
  · simp
  · simp

theorem OneLine.append {a b : Bytes} (ha : OneLine a) (hb : OneLine b) : OneLine (a ++ b) := by
  intro c hc
  rcases List.mem_append.1 hc with h | h
  · exact ha c h
  · exact hb c h

/-! ### Operations inside a critical section -/

section
variable {c : Cfg} {K : Bytes → Prop} {h : Held} {k : Bytes}

theorem body_dictGet {R : Option Val → Prop} (hk : K k) (hh : h.has (c.lockPos k)) (hR : ∀ r, R r) :
    (dictGet k).All (Body c K h) R := all_op ⟨trivial, hk, .inr hh⟩ hR
theorem body_dictSet {v : Val} {R : Nat → Prop} (hk : K k) (hh : (c.lockPos k, true) ∈ h) (hR : ∀ r, R r) :
    (dictSet k v).All (Body c K h) R := all_op ⟨trivial, hk, hh⟩ hR
theorem body_dictDel {R : Nat → Prop} (hk : K k) (hh : (c.lockPos k, true) ∈ h) (hR : ∀ r, R r) :
    (dictDel k).All (Body c K h) R := all_op ⟨trivial, hk, hh⟩ hR
theorem body_objPut {v : Val} {R : Unit → Prop} (hk : K k) (hh : (c.lockPos k, true) ∈ h) (hR : ∀ r, R r) :
    (objPut k v).All (Body c K h) R := all_op ⟨trivial, hk, hh⟩ hR
theorem body_expGet {R : Option Int → Prop} (hk : K k) (hh : h.has (c.lockPos k)) (hR : ∀ r, R r) :
    (expGet k).All (Body c K h) R := all_op ⟨trivial, hk, .inr hh⟩ hR
theorem body_expDel {R : Nat → Prop} (hk : K k) (hh : (c.lockPos k, true) ∈ h) (hR : ∀ r, R r) :
    (deleteExpire k).All (Body c K h) R := all_op (o := .expDel k) ⟨trivial, hk, hh⟩ hR
theorem body_setExpire {t : Int} {R : Int → Prop} (hk : K k) (hh : (c.lockPos k, true) ∈ h) (hR : ∀ r, R r) :
    (setExpire k t).All (Body c K h) R := by
  refine all_bind (body_dictGet hk ⟨true, hh⟩ fun r => ?_)
  cases r with
  | none => exact all_pure (hR _)
  | some v => exact all_bind (all_op (o := .expSet k t) ⟨trivial, hk, hh⟩ fun _ => all_pure (hR _))
theorem body_now {R : Int → Prop} (hR : ∀ r, R r) : now.All (Body c K h) R := all_op ⟨trivial, trivial⟩ hR
theorem body_order {l : List Bytes} {R : List Bytes → Prop} (hR : ∀ r, R r) : (order l).All (Body c K h) R :=
  all_op ⟨trivial, trivial⟩ hR
theorem body_cleanup {e : Bool} {R : Unit → Prop} (hk : K k) (hh : (c.lockPos k, true) ∈ h) (hR : ∀ r, R r) :
    (cleanup k e).All (Body c K h) R := by
  unfold cleanup
  split
  · exact all_bind (body_dictDel hk hh fun _ => all_bind (body_expDel hk hh fun _ => all_pure (hR _)))
  · exact all_pure (hR _)
theorem body_getOrCreate {v : Val} {R : Val → Prop} (hk : K k) (hh : (c.lockPos k, true) ∈ h) (hR : ∀ r, R r) :
    (getOrCreate k v).All (Body c K h) R := by
  refine all_bind (body_dictGet hk ⟨true, hh⟩ fun r => ?_)
  cases r with
  | some v => exact all_pure (hR _)
  | none => exact all_bind (body_dictSet hk hh fun _ => all_pure (hR _))

theorem body_randLoop {ks : List Bytes} {m : Nat} {R : List Bytes → Prop} (hR : ∀ r, R r) :
    (randLoop ks m).All (Body c K h) R := by
  induction m generalizing R with
  | zero => exact all_pure (hR _)
  | succ m ih =>
    refine all_bind (body_order fun r => ?_)
    cases r with
    | nil => exact all_fault
    | cons a r => exact all_bind (ih fun _ => all_pure (hR _))
theorem body_randomKeys {ks : List Bytes} {n : Int} {e : Nat} {R : List Bytes → Prop} (hR : ∀ r, R r) :
    (randomKeys c ks n e).All (Body c K h) R := by
  unfold randomKeys
  split
  · exact all_pure (hR _)
  · split
    · exact all_bind (body_order fun r => all_pure (hR _))
    · split
      · exact all_fault
      · exact body_randLoop hR
theorem body_hKeys {t : HashT} {R : List Bytes → Prop} (hR : ∀ r, R r) : (hKeys t).All (Body c K h) R := body_order hR
theorem body_hValues {t : HashT} {R : List Slice → Prop} (hR : ∀ r, R r) : (hValues t).All (Body c K h) R :=
  all_bind (body_order fun _ => all_pure (hR _))
theorem body_sMembers {t : SetT} {R : List Bytes → Prop} (hR : ∀ r, R r) : (sMembers t).All (Body c K h) R := body_order hR
theorem body_sPop {t : SetT} {R : Bytes × SetT → Prop} (hR : ∀ r, R r) : (sPop t).All (Body c K h) R := by
  refine all_bind (body_order fun r => ?_)
  cases r <;> exact all_pure (hR _)
theorem body_sPopLoop {t : SetT} {a : List Bytes} {m : Nat} {R : List Bytes × SetT → Prop} (hR : ∀ r, R r) :
    (sPopLoop t a m).All (Body c K h) R := by
  induction m generalizing t a with
  | zero => exact all_pure (hR _)
  | succ m ih => exact all_bind (body_sPop fun _ => ih)
theorem body_getSets {a : List SetT} {ks : List Bytes} {R : Option (List SetT) → Prop} (hk : ∀ k ∈ ks, K k)
    (hh : ∀ k ∈ ks, h.has (c.lockPos k)) (hR : ∀ r, R r) : (getSets a ks).All (Body c K h) R := by
  induction ks generalizing a with
  | nil => exact all_pure (hR _)
  | cons k ks ih =>
    have ih' := fun a => ih (a := a) (fun k hk' => hk k (by simp [hk'])) (fun k hk' => hh k (by simp [hk']))
    refine all_bind (body_dictGet (hk k (by simp)) (hh k (by simp)) fun r => ?_)
    rcases r with _ | (_ | _ | _ | _)
    · exact ih' _
    · exact all_pure (hR _)
    · exact all_pure (hR _)
    · exact all_pure (hR _)
    · exact ih' _
theorem body_getSetsSkip {a : List SetT} {ks : List Bytes} {R : Option (List SetT) → Prop} (hk : ∀ k ∈ ks, K k)
    (hh : ∀ k ∈ ks, h.has (c.lockPos k)) (hR : ∀ r, R r) : (getSetsSkip a ks).All (Body c K h) R := by
  induction ks generalizing a with
  | nil => exact all_pure (hR _)
  | cons k ks ih =>
    have ih' := fun a => ih (a := a) (fun k hk' => hk k (by simp [hk'])) (fun k hk' => hh k (by simp [hk']))
    refine all_bind (body_dictGet (hk k (by simp)) (hh k (by simp)) fun r => ?_)
    rcases r with _ | (_ | _ | _ | _)
    · exact ih' _
    · exact all_pure (hR _)
    · exact all_pure (hR _)
    · exact all_pure (hR _)
    · exact ih' _
theorem body_mSetLoop {l : List (Bytes × Slice)} {R : Unit → Prop} (hk : ∀ x ∈ l, K x.1)
    (hh : ∀ x ∈ l, (c.lockPos x.1, true) ∈ h) (hR : ∀ r, R r) : (mSetLoop l).All (Body c K h) R := by
  induction l with
  | nil => exact all_pure (hR _)
  | cons x l ih =>
    have h1 := hk x (by simp); have h2 := hh x (by simp)
    exact all_bind (body_expDel h1 h2 fun _ => all_bind (body_dictSet h1 h2 fun _ =>
      ih (fun x hx => hk x (by simp [hx])) (fun x hx => hh x (by simp [hx]))))
theorem body_setTtl {o : SetOpts} {R : Unit → Prop} (hk : K k) (hh : (c.lockPos k, true) ∈ h) (hR : ∀ r, R r) :
    (setTtl k o).All (Body c K h) R := by
  have step {b : Bool} {p q : Prog Unit} (h1 : q.All (Body c K h) R) (h2 : q.All (Body c K h) R → p.All (Body c K h) R) :
      (if b = true then p else q).All (Body c K h) R := by
    split
    · exact h2 h1
    · exact h1
  unfold setTtl
  dsimp only
  refine step (step (step (step (step (all_pure (hR _)) ?_) ?_) ?_) ?_) ?_
  · exact fun hq => all_bind (body_setExpire hk hh fun _ => hq)
  · exact fun hq => all_bind (body_setExpire hk hh fun _ => hq)
  · exact fun hq => all_bind (body_now fun _ => all_bind (body_setExpire hk hh fun _ => hq))
  · exact fun hq => all_bind (body_now fun _ => all_bind (body_setExpire hk hh fun _ => hq))
  · exact fun hq => all_bind (body_expDel hk hh fun _ => hq)
end

/-- Side conditions: the key is named, its lock is held. -/
macro "side" : tactic => `(tactic| first
  | assumption
  | exact List.mem_singleton.2 rfl
  | exact ⟨_, List.mem_singleton.2 rfl⟩
  | exact mem_heldAll (by simp)
  | exact ⟨_, mem_heldAll (by simp)⟩
  | (simp; done))

/-- Reply conditions. -/
macro "cln" : tactic => `(tactic| first
  | (simp; done)
  | (apply clean_rErr; decide)
  | (apply clean_rSimple; decide)
  | exact trivial
  | assumption
  | (apply clean_flatMap; simp; done))

/-- One step through a command. -/
macro "dstep" : tactic => `(tactic| first
  | exact disc_fault
  | exact all_fault
  | exact disc_pure ⟨rfl, fun _ => by cln⟩
  | exact all_pure ⟨rfl, fun _ => by cln⟩
  | ((with_reducible refine disc_bind (disc_check ?_ fun _ => ?_)); (· side))
  | with_reducible refine disc_withLock ?_
  | with_reducible refine disc_withRLock ?_
  | with_reducible refine disc_withMLock ?_
  | with_reducible refine disc_withMRLock ?_
  | ((with_reducible refine all_bind (body_setExpire ?_ ?_ fun _ => ?_)); (· side); (· side))
  | ((with_reducible refine all_bind (body_cleanup ?_ ?_ fun _ => ?_)); (· side); (· side))
  | ((with_reducible refine all_bind (body_getOrCreate ?_ ?_ fun _ => ?_)); (· side); (· side))
  | ((with_reducible refine all_bind (body_dictGet ?_ ?_ fun _ => ?_)); (· side); (· side))
  | ((with_reducible refine all_bind (body_dictSet ?_ ?_ fun _ => ?_)); (· side); (· side))
  | ((with_reducible refine all_bind (body_dictDel ?_ ?_ fun _ => ?_)); (· side); (· side))
  | ((with_reducible refine all_bind (body_objPut ?_ ?_ fun _ => ?_)); (· side); (· side))
  | ((with_reducible refine all_bind (body_expGet ?_ ?_ fun _ => ?_)); (· side); (· side))
  | ((with_reducible refine all_bind (body_expDel ?_ ?_ fun _ => ?_)); (· side); (· side))
  | with_reducible refine all_bind (body_sPop fun _ => ?_)
  | with_reducible refine all_bind (body_now fun _ => ?_)
  | with_reducible refine all_bind (body_randomKeys fun _ => ?_)
  | with_reducible refine all_bind (body_hKeys fun _ => ?_)
  | with_reducible refine all_bind (body_hValues fun _ => ?_)
  | with_reducible refine all_bind (body_sMembers fun _ => ?_)
  | with_reducible refine all_bind (body_sPopLoop fun _ => ?_)
  | with_reducible refine all_bind (body_order fun _ => ?_)
  | dsimp only
  | (split <;> try (rename_i heq; cases (heq : _ :: _ = _ :: _))))

macro "disc" : tactic => `(tactic| repeat' dstep)

/-- The end of a command: no lock is held and the reply is clean if `W`. -/
abbrev Done (W : Prop) (h : Held) (d : Data) : Prop := h = [] ∧ (W → d.Clean)

macro "onekey " args:ident hK:ident " in " f:ident : tactic => `(tactic| (
  rcases $args:ident with _ | ⟨k, $args:ident⟩
  · unfold $f:ident; disc
  have hk := $hK:ident (str k) (by simp)
  clear $hK:ident
  unfold $f:ident; disc))

section
variable (c : Cfg) {K : Bytes → Prop} {W : Prop} (n : Slice) (args : List Slice)

/-! ### Commands with one key -/

theorem disc_getString (hK : ∀ k ∈ (args.take 1).map str, K k) : (getString c (n :: args)).Disc c K (Done W) [] := by
  onekey args hK in getString

theorem disc_getRangeString (hK : ∀ k ∈ (args.take 1).map str, K k) : (getRangeString c (n :: args)).Disc c K (Done W) [] := by
  onekey args hK in getRangeString

theorem disc_setRangeString (hK : ∀ k ∈ (args.take 1).map str, K k) : (setRangeString c (n :: args)).Disc c K (Done W) [] := by
  onekey args hK in setRangeString

theorem disc_setExString (hK : ∀ k ∈ (args.take 1).map str, K k) : (setExString c (n :: args)).Disc c K (Done W) [] := by
  onekey args hK in setExString

theorem disc_strLenString (hK : ∀ k ∈ (args.take 1).map str, K k) : (strLenString c (n :: args)).Disc c K (Done W) [] := by
  onekey args hK in strLenString

theorem disc_incrByFloatString (hK : ∀ k ∈ (args.take 1).map str, K k) : (incrByFloatString c (n :: args)).Disc c K (Done W) [] := by
  onekey args hK in incrByFloatString

theorem disc_appendString (hK : ∀ k ∈ (args.take 1).map str, K k) : (appendString c (n :: args)).Disc c K (Done W) [] := by
  onekey args hK in appendString

theorem disc_persistKey (hK : ∀ k ∈ (args.take 1).map str, K k) : (persistKey c (n :: args)).Disc c K (Done W) [] := by
  onekey args hK in persistKey

theorem disc_ttlKey (hK : ∀ k ∈ (args.take 1).map str, K k) : (ttlKey c (n :: args)).Disc c K (Done W) [] := by
  onekey args hK in ttlKey

theorem disc_hDelHash (hK : ∀ k ∈ (args.take 1).map str, K k) : (hDelHash c (n :: args)).Disc c K (Done W) [] := by
  onekey args hK in hDelHash

theorem disc_hExistsHash (hK : ∀ k ∈ (args.take 1).map str, K k) : (hExistsHash c (n :: args)).Disc c K (Done W) [] := by
  onekey args hK in hExistsHash

theorem disc_hGetHash (hK : ∀ k ∈ (args.take 1).map str, K k) : (hGetHash c (n :: args)).Disc c K (Done W) [] := by
  onekey args hK in hGetHash

theorem disc_hGetAllHash (hK : ∀ k ∈ (args.take 1).map str, K k) : (hGetAllHash c (n :: args)).Disc c K (Done W) [] := by
  onekey args hK in hGetAllHash

theorem disc_hIncrByHash (hK : ∀ k ∈ (args.take 1).map str, K k) : (hIncrByHash c (n :: args)).Disc c K (Done W) [] := by
  onekey args hK in hIncrByHash

theorem disc_hIncrByFloatHash (hK : ∀ k ∈ (args.take 1).map str, K k) : (hIncrByFloatHash c (n :: args)).Disc c K (Done W) [] := by
  onekey args hK in hIncrByFloatHash

theorem disc_hKeysHash (hK : ∀ k ∈ (args.take 1).map str, K k) : (hKeysHash c (n :: args)).Disc c K (Done W) [] := by
  onekey args hK in hKeysHash

theorem disc_hLenHash (hK : ∀ k ∈ (args.take 1).map str, K k) : (hLenHash c (n :: args)).Disc c K (Done W) [] := by
  onekey args hK in hLenHash

theorem disc_hMGetHash (hK : ∀ k ∈ (args.take 1).map str, K k) : (hMGetHash c (n :: args)).Disc c K (Done W) [] := by
  onekey args hK in hMGetHash

theorem disc_hMSetHash (hK : ∀ k ∈ (args.take 1).map str, K k) : (hMSetHash c (n :: args)).Disc c K (Done W) [] := by
  onekey args hK in hMSetHash

theorem disc_hSetHash (hK : ∀ k ∈ (args.take 1).map str, K k) : (hSetHash c (n :: args)).Disc c K (Done W) [] := by
  onekey args hK in hSetHash

theorem disc_hSetNxHash (hK : ∀ k ∈ (args.take 1).map str, K k) : (hSetNxHash c (n :: args)).Disc c K (Done W) [] := by
  onekey args hK in hSetNxHash

theorem disc_hValsHash (hK : ∀ k ∈ (args.take 1).map str, K k) : (hValsHash c (n :: args)).Disc c K (Done W) [] := by
  onekey args hK in hValsHash

theorem disc_hStrLenHash (hK : ∀ k ∈ (args.take 1).map str, K k) : (hStrLenHash c (n :: args)).Disc c K (Done W) [] := by
  onekey args hK in hStrLenHash

theorem disc_lIndexList (hK : ∀ k ∈ (args.take 1).map str, K k) : (lIndexList c (n :: args)).Disc c K (Done W) [] := by
  onekey args hK in lIndexList

theorem disc_lInsertList (hK : ∀ k ∈ (args.take 1).map str, K k) : (lInsertList c (n :: args)).Disc c K (Done W) [] := by
  onekey args hK in lInsertList

theorem disc_lLenList (hK : ∀ k ∈ (args.take 1).map str, K k) : (lLenList c (n :: args)).Disc c K (Done W) [] := by
  onekey args hK in lLenList

theorem disc_pushList (push : ListT → Slice → ListT) (hK : ∀ k ∈ (args.take 1).map str, K k) : (pushList push c (n :: args)).Disc c K (Done W) [] := by
  onekey args hK in pushList

theorem disc_pushXList (push : ListT → Slice → ListT) (hK : ∀ k ∈ (args.take 1).map str, K k) : (pushXList push c (n :: args)).Disc c K (Done W) [] := by
  onekey args hK in pushXList

theorem disc_lRangeList (hK : ∀ k ∈ (args.take 1).map str, K k) : (lRangeList c (n :: args)).Disc c K (Done W) [] := by
  onekey args hK in lRangeList

theorem disc_lRemList (hK : ∀ k ∈ (args.take 1).map str, K k) : (lRemList c (n :: args)).Disc c K (Done W) [] := by
  onekey args hK in lRemList

theorem disc_lSetList (hK : ∀ k ∈ (args.take 1).map str, K k) : (lSetList c (n :: args)).Disc c K (Done W) [] := by
  onekey args hK in lSetList

theorem disc_lTrimList (hK : ∀ k ∈ (args.take 1).map str, K k) : (lTrimList c (n :: args)).Disc c K (Done W) [] := by
  onekey args hK in lTrimList

theorem disc_sAddSet (hK : ∀ k ∈ (args.take 1).map str, K k) : (sAddSet c (n :: args)).Disc c K (Done W) [] := by
  onekey args hK in sAddSet

theorem disc_sCardSet (hK : ∀ k ∈ (args.take 1).map str, K k) : (sCardSet c (n :: args)).Disc c K (Done W) [] := by
  onekey args hK in sCardSet

theorem disc_sIsMemberSet (hK : ∀ k ∈ (args.take 1).map str, K k) : (sIsMemberSet c (n :: args)).Disc c K (Done W) [] := by
  onekey args hK in sIsMemberSet

theorem disc_sMembersSet (hK : ∀ k ∈ (args.take 1).map str, K k) : (sMembersSet c (n :: args)).Disc c K (Done W) [] := by
  onekey args hK in sMembersSet

theorem disc_sRemSet (hK : ∀ k ∈ (args.take 1).map str, K k) : (sRemSet c (n :: args)).Disc c K (Done W) [] := by
  onekey args hK in sRemSet

theorem disc_typeKey (hK : ∀ k ∈ (args.take 1).map str, K k) : (typeKey c (n :: args)).Disc c K (Done W) [] := by
  onekey args hK in typeKey


theorem disc_counterBody {key : Bytes} {f : Int → Int} {bad : Data} (hb : bad.Clean) (hk : K key) :
    (counterBody key f bad).All (Body c K [(c.lockPos key, true)]) (Done W []) := by
  unfold counterBody; disc

theorem disc_incrString (hK : ∀ k ∈ (args.take 1).map str, K k) : (incrString c (n :: args)).Disc c K (Done W) [] := by
  onekey args hK in incrString
  exact disc_counterBody c clean_eInt ‹_›
theorem disc_incrByString (hK : ∀ k ∈ (args.take 1).map str, K k) : (incrByString c (n :: args)).Disc c K (Done W) [] := by
  onekey args hK in incrByString
  exact disc_counterBody c clean_eInt ‹_›
theorem disc_decrString (hK : ∀ k ∈ (args.take 1).map str, K k) : (decrString c (n :: args)).Disc c K (Done W) [] := by
  onekey args hK in decrString
  exact disc_counterBody c clean_eInt ‹_›
theorem disc_decrByString (hK : ∀ k ∈ (args.take 1).map str, K k) : (decrByString c (n :: args)).Disc c K (Done W) [] := by
  onekey args hK in decrByString
  exact disc_counterBody c (clean_rErr (by decide)) ‹_›

theorem disc_hRandFieldBody {key : Bytes} {m : Int} {w : Bool} (hk : K key) :
    (hRandFieldBody c key m w).All (Body c K [(c.lockPos key, false)]) (Done W []) := by
  unfold hRandFieldBody; disc

theorem disc_hRandFieldHash (hK : ∀ k ∈ (args.take 1).map str, K k) : (hRandFieldHash c (n :: args)).Disc c K (Done W) [] := by
  onekey args hK in hRandFieldHash
  all_goals exact disc_hRandFieldBody c ‹_›

theorem disc_popBody {pop : ListT → Option (Slice × ListT)} {key : Bytes} {m : Int} (hk : K key) :
    (popBody pop key m).All (Body c K [(c.lockPos key, true)]) (Done W []) := by
  unfold popBody; disc

theorem disc_popList {pop : ListT → Option (Slice × ListT)} (hK : ∀ k ∈ (args.take 1).map str, K k) :
    (popList pop c (n :: args)).Disc c K (Done W) [] := by
  onekey args hK in popList
  all_goals exact disc_popBody c ‹_›

theorem disc_sPopBody {key : Bytes} {m : Option Int} (hk : K key) :
    (sPopBody key m).All (Body c K [(c.lockPos key, true)]) (Done W []) := by
  unfold sPopBody; disc

theorem disc_sPopSet (hK : ∀ k ∈ (args.take 1).map str, K k) : (sPopSet c (n :: args)).Disc c K (Done W) [] := by
  onekey args hK in sPopSet
  all_goals exact disc_sPopBody c ‹_›

theorem disc_sRandBody {key : Bytes} {m : Option Int} (hk : K key) :
    (sRandBody c key m).All (Body c K [(c.lockPos key, false)]) (Done W []) := by
  unfold sRandBody; disc

theorem disc_sRandMemberSet (hK : ∀ k ∈ (args.take 1).map str, K k) : (sRandMemberSet c (n :: args)).Disc c K (Done W) [] := by
  onekey args hK in sRandMemberSet
  all_goals exact disc_sRandBody c ‹_›

/-- SETNX looks at the key before taking its lock. -/
theorem disc_setNxString (hK : ∀ k ∈ (args.take 1).map str, K k) : (setNxString c (n :: args)).Disc c K (Done W) [] := by
  onekey args hK in setNxString
  refine disc_bind (disc_op (o := .dictGet _) ⟨‹_›, .inl rfl⟩ fun r => ?_)
  dsimp only [Op.held]
  cases r <;> disc

/-! ### Commands that echo an option -/

theorem disc_expireBody {key : Bytes} {t : Int} {o raw : Bytes} (hk : K key) (hw : W → OneLine raw) :
    (expireBody key t o raw).All (Body c K [(c.lockPos key, true)]) (Done W []) := by
  unfold expireBody; disc
  exact all_pure ⟨rfl, fun w => clean_rErr (OneLine.append (by decide) (hw w))⟩

theorem disc_expireMain {key secs o raw : Bytes} (hk : K key) (hw : W → OneLine raw) :
    (expireMain c key secs o raw).Disc c K (Done W) [] := by
  unfold expireMain; disc
  refine disc_bind (disc_op (o := .now) trivial fun r => ?_)
  disc
  exact disc_expireBody c hk hw

theorem disc_expireKey (hK : ∀ k ∈ (args.take 1).map str, K k) (hW : W → ∀ a ∈ args.drop 2, OneLine (str a)) :
    (expireKey c (n :: args)).Disc c K (Done W) [] := by
  onekey args hK in expireKey
  · exact disc_expireMain c ‹_› (by simp [OneLine])
  · exact disc_expireMain c ‹_› (fun w => hW w _ (by simp))

theorem clean_parseSetOpts {o : SetOpts} {l : List Slice} {d : Data} (hl : ∀ a ∈ l, OneLine (str a))
    (h : parseSetOpts o l = .reply d) : d.Clean := by
  fun_induction parseSetOpts o l
  all_goals try (cases h; done)
  all_goals try (rename_i ih; exact ih (fun a ha => hl a (by simp [ha])) h)
  all_goals cases h
  all_goals try (exact clean_eInt)
  exact clean_rErr (OneLine.append (by decide) (hl _ (by simp)))

theorem disc_setBody {key : Bytes} {v : Slice} {o : SetOpts} (hk : K key) :
    (setBody key v o).All (Body c K [(c.lockPos key, true)]) (Done W []) := by
  have hgo (old : Slice) (b : Bool) : (do
      let res ← setWrite key v o b
      let res := if o.get then (if b then rBulk old else rNil) else res
      setTtl key o
      return res).All (Body c K [(c.lockPos key, true)]) (Done W []) := by
    have hw : (setWrite key v o b).All (Body c K [(c.lockPos key, true)]) fun d => d.Clean := by
      unfold setWrite
      repeat' first
        | exact all_pure (by simp)
        | refine all_bind (body_dictSet hk (by simp) fun _ => ?_)
        | split
    refine all_bind (hw.mono (fun _ h => h) fun d hd => ?_)
    refine all_bind (body_setTtl hk (by simp) fun _ => all_pure ⟨rfl, fun _ => ?_⟩)
    repeat' split
    all_goals simp [hd]
  refine all_bind (body_dictGet hk ⟨true, by simp⟩ fun r => ?_)
  rcases r with _ | (_ | _ | _ | _)
  · exact hgo _ _
  · exact hgo _ _
  all_goals exact all_pure ⟨rfl, fun _ => clean_eNotStrSet⟩

theorem disc_setString (hK : ∀ k ∈ (args.take 1).map str, K k) (hW : W → ∀ a ∈ args.drop 2, OneLine (str a)) :
    (setString c (n :: args)).Disc c K (Done W) [] := by
  onekey args hK in setString
  · exact disc_pure ⟨rfl, fun w => by
      rename_i heq; exact clean_parseSetOpts (fun a ha => hW w a (by simp [ha])) heq⟩
  · exact disc_setBody c ‹_›

theorem clean_parsePosOpts {o : PosOpts} {l : List Slice} {d : Data} (hl : ∀ a ∈ l, OneLine (str a))
    (h : parsePosOpts o l = .error d) : d.Clean := by
  fun_induction parsePosOpts o l
  all_goals try (cases h; done)
  all_goals try (rename_i ih; exact ih (fun a ha => hl a (by simp [ha])) h)
  all_goals cases h
  all_goals try (exact clean_eInt)
  all_goals try (exact clean_eRank)
  all_goals try (exact clean_rErr (by decide))
  exact clean_rErr (OneLine.append (by decide) (hl _ (by simp)))

theorem disc_lPosList (hK : ∀ k ∈ (args.take 1).map str, K k) (hW : W → ∀ a ∈ args.drop 2, OneLine (str a)) :
    (lPosList c (n :: args)).Disc c K (Done W) [] := by
  onekey args hK in lPosList
  exact disc_pure ⟨rfl, fun w => by
      rename_i heq; exact clean_parsePosOpts (fun a ha => hW w a (by simp [ha])) heq⟩

/-! ### Commands with two keys -/

theorem disc_pingKeys : (pingKeys (n :: args)).Disc c K (Done W) [] := by
  unfold pingKeys; disc

macro "twokeys " args:ident hK:ident " in " f:ident : tactic => `(tactic| (
  rcases $args:ident with _ | ⟨k, _ | ⟨k', $args:ident⟩⟩
  · unfold $f:ident; disc
  · unfold $f:ident; disc
  have hk := $hK:ident (str k) (by simp)
  have hk' := $hK:ident (str k') (by simp)
  clear $hK:ident
  unfold $f:ident; disc))

theorem disc_renameKey (hK : ∀ k ∈ (args.take 2).map str, K k) : (renameKey c (n :: args)).Disc c K (Done W) [] := by
  twokeys args hK in renameKey

theorem disc_lMoveBody {a b : Bytes} {x y : Bool} {sl : ListT} {v : Val} (ha : K a) (hb : K b) :
    (lMoveBody a b x y sl v).All (Body c K (heldAll c [a, b] true)) (Done W []) := by
  unfold lMoveBody; disc

theorem disc_lMoveList (hK : ∀ k ∈ (args.take 2).map str, K k) : (lMoveList c (n :: args)).Disc c K (Done W) [] := by
  twokeys args hK in lMoveList
  all_goals exact disc_lMoveBody c ‹_› ‹_›

theorem disc_sMoveSet (hK : ∀ k ∈ (args.take 2).map str, K k) : (sMoveSet c (n :: args)).Disc c K (Done W) [] := by
  twokeys args hK in sMoveSet

/-! ### Commands with any number of keys -/

theorem disc_delLoop {R : Held → Nat → Prop} (ks : List Slice) (m : Nat) (hK : ∀ k ∈ ks, K (str k)) (hR : ∀ r, R [] r) :
    (delLoop c m ks).Disc c K R [] := by
  induction ks generalizing m with
  | nil => exact disc_pure (hR _)
  | cons k ks ih =>
    have hk := hK k (by simp)
    have ih' := fun m => ih m (fun k h => hK k (by simp [h]))
    refine disc_bind (disc_check hk fun b => ?_)
    split
    · exact ih' _
    · refine disc_bind (disc_withLock (all_bind (body_dictDel hk (by simp) fun _ => all_bind (body_expDel hk (by simp) fun _ =>
        all_pure (ih' _)))))

theorem disc_delKey (hK : ∀ k ∈ args.map str, K k) : (delKey c (n :: args)).Disc c K (Done W) [] := by
  rcases args with _ | ⟨k, args⟩
  · unfold delKey; disc
  · exact disc_bind (disc_delLoop c _ 0 (fun a ha => hK _ (List.mem_map_of_mem ha)) fun _ => disc_pure ⟨rfl, fun _ => by simp⟩)

theorem disc_existsLoop {R : Held → Nat → Prop} (ks : List Slice) (m : Nat) (hK : ∀ k ∈ ks, K (str k)) (hR : ∀ r, R [] r) :
    (existsLoop c m ks).Disc c K R [] := by
  induction ks generalizing m with
  | nil => exact disc_pure (hR _)
  | cons k ks ih =>
    have hk := hK k (by simp)
    have ih' := fun m => ih m (fun k h => hK k (by simp [h]))
    refine disc_bind (disc_check hk fun b => ?_)
    split
    · exact ih' _
    · exact disc_bind (disc_withRLock (body_dictGet hk ⟨_, List.mem_singleton.2 rfl⟩ fun _ => ih' _))

theorem disc_existsKey (hK : ∀ k ∈ args.map str, K k) : (existsKey c (n :: args)).Disc c K (Done W) [] := by
  rcases args with _ | ⟨k, args⟩
  · unfold existsKey; disc
  · exact disc_bind (disc_existsLoop c _ 0 (fun a ha => hK _ (List.mem_map_of_mem ha)) fun _ => disc_pure ⟨rfl, fun _ => by simp⟩)

theorem disc_mGetLoop {R : Held → List Item → Prop} (ks : List Slice) (res : List Item) (hres : ∀ x ∈ res, x.Clean)
    (hK : ∀ k ∈ ks, K (str k)) (hR : ∀ r : List Item, (∀ x ∈ r, x.Clean) → R [] r) : (mGetLoop c res ks).Disc c K R [] := by
  induction ks generalizing res with
  | nil => exact disc_pure (hR _ hres)
  | cons k ks ih =>
    have hk := hK k (by simp)
    have ih' := fun res hres => ih res hres (fun k h => hK k (by simp [h]))
    have hadd (b : Slice) : ∀ x ∈ res ++ [Item.bulk b], x.Clean := by
      intro x hx
      rcases List.mem_append.1 hx with h | h
      · exact hres x h
      · rw [List.mem_singleton.1 h]; trivial
    refine disc_bind (disc_check hk fun b => ?_)
    split
    · exact ih' _ hres
    · refine disc_bind (disc_withRLock (body_dictGet hk ⟨_, List.mem_singleton.2 rfl⟩ fun v => ?_))
      rcases v with _ | (_ | _ | _ | _)
      all_goals exact ih' _ (hadd _)

theorem disc_mGetString (hK : ∀ k ∈ args.map str, K k) : (mGetString c (n :: args)).Disc c K (Done W) [] := by
  rcases args with _ | ⟨k, args⟩
  · unfold mGetString; disc
  · exact disc_bind (disc_mGetLoop c _ [] (by simp) (fun a ha => hK _ (List.mem_map_of_mem ha)) fun _ hr => disc_pure ⟨rfl, fun _ => hr⟩)

theorem disc_liveKeys {R : Held → List Bytes → Prop} (ks : List Slice) (acc : List Bytes) (hK : ∀ k ∈ ks, K (str k))
    (ha : ∀ k ∈ acc, K k) (hR : ∀ r : List Bytes, (∀ k ∈ r, K k) → R [] r) : (liveKeys c acc ks).Disc c K R [] := by
  induction ks generalizing acc with
  | nil => exact disc_pure (hR _ ha)
  | cons k ks ih =>
    have hk := hK k (by simp)
    have ih' := fun acc ha => ih acc (fun k h => hK k (by simp [h])) ha
    refine disc_bind (disc_check hk fun b => ?_)
    split
    · exact ih' _ ha
    · refine ih' _ fun x hx => ?_
      rcases List.mem_append.1 hx with h | h
      · exact ha x h
      · rw [List.mem_singleton.1 h]; exact hk

theorem disc_setOpSet (op : SetT → List SetT → SetT) (hK : ∀ k ∈ args.map str, K k) :
    (setOpSet op c (n :: args)).Disc c K (Done W) [] := by
  rcases args with _ | ⟨k, args⟩
  · unfold setOpSet; disc
  · refine disc_bind (disc_liveKeys c _ [] (fun a ha => hK _ (List.mem_map_of_mem ha)) (by simp) fun keys hkeys => disc_withMRLock ?_)
    rcases keys with _ | ⟨key, rest⟩
    · exact all_fault
    · have hh : ∀ k ∈ key :: rest, (heldAll c (key :: rest) false).has (c.lockPos k) := fun k hk => ⟨_, mem_heldAll hk⟩
      have hgo (s : SetT) : (match (generalizing := false) rest with
          | [] => do
            let ms ← sMembers s
            return appendedArr ms
          | _ => do
            match ← getSets [] rest with
            | none => return eWrong
            | some sets => do
              let ms ← sMembers (op s sets)
              return appendedArr ms : Prog Data).All (Body c K (heldAll c (key :: rest) false)) (Done W []) := by
        split
        · exact all_bind (body_sMembers fun _ => all_pure ⟨rfl, fun _ => by simp⟩)
        · refine all_bind (body_getSets (fun k hk => hkeys k (by simp [hk])) (fun k hk => hh k (by simp [hk])) fun r => ?_)
          cases r with
          | none => exact all_pure ⟨rfl, fun _ => by simp⟩
          | some sets => exact all_bind (body_sMembers fun _ => all_pure ⟨rfl, fun _ => by simp⟩)
      refine all_bind (body_dictGet (hkeys key (by simp)) (hh key (by simp)) fun r => ?_)
      rcases r with _ | (_ | _ | _ | _)
      · exact hgo _
      · exact all_pure ⟨rfl, fun _ => by simp⟩
      · exact all_pure ⟨rfl, fun _ => by simp⟩
      · exact all_pure ⟨rfl, fun _ => by simp⟩
      · exact hgo _

theorem body_storeDest {h : Held} {d : Bytes} {b : Bool} {t : SetT} {r : Data} {R : Data → Prop} (hk : K d)
    (hh : (c.lockPos d, true) ∈ h) (hR : R r) : (storeDest d b t r).All (Body c K h) R := by
  refine all_bind (body_dictSet hk hh fun _ => ?_)
  split
  · exact all_bind (body_expDel hk hh fun _ => all_pure hR)
  · exact all_pure hR

theorem disc_setOpStoreSet (op : SetT → List SetT → SetT) (hK : ∀ k ∈ args.map str, K k) :
    (setOpStoreSet op c (n :: args)).Disc c K (Done W) [] := by
  rcases args with _ | ⟨d, _ | ⟨k, args⟩⟩
  · unfold setOpStoreSet; disc
  · unfold setOpStoreSet; disc
  · have hd := hK (str d) (by simp)
    refine disc_bind (disc_check hd fun _ => ?_)
    refine disc_bind (disc_liveKeys c _ [] (fun a ha => hK _ (List.mem_map_of_mem (by simp [List.mem_cons.1 ha]))) (by simp) fun keys hkeys => ?_)
    rcases keys with _ | ⟨key, rest⟩
    · exact disc_pure ⟨rfl, fun _ => by simp⟩
    · refine disc_withMLock ?_
      have hdest : (c.lockPos (str d), true) ∈ heldAll c (str d :: key :: rest) true := mem_heldAll (by simp)
      have hh : ∀ k ∈ key :: rest, (heldAll c (str d :: key :: rest) true).has (c.lockPos k) :=
        fun k hk => ⟨_, mem_heldAll (by simp [List.mem_cons.1 hk])⟩
      have hgo (s : SetT) : (do
          let old ← dictGet (str d)
          match rest with
          | [] => do
            let ms ← sMembers s
            let destSet := sAddAll [] ms
            storeDest (str d) old.isSome destSet (rInt destSet.length)
          | _ => do
            match ← getSetsSkip [] rest with
            | none => storeDest (str d) old.isSome [] eWrong
            | some sets => do
              let ms ← sMembers (op s sets)
              let destSet := sAddAll [] ms
              storeDest (str d) old.isSome destSet (rInt destSet.length) : Prog Data).All
            (Body c K (heldAll c (str d :: key :: rest) true)) (Done W []) := by
        refine all_bind (body_dictGet hd ⟨_, hdest⟩ fun old => ?_)
        split
        · exact all_bind (body_sMembers fun _ => body_storeDest c hd hdest ⟨rfl, fun _ => by simp⟩)
        · refine all_bind (body_getSetsSkip (fun k hk => hkeys k (by simp [hk])) (fun k hk => hh k (by simp [hk])) fun r => ?_)
          cases r with
          | none => exact body_storeDest c hd hdest ⟨rfl, fun _ => by simp⟩
          | some sets => exact all_bind (body_sMembers fun _ => body_storeDest c hd hdest ⟨rfl, fun _ => by simp⟩)
      refine all_bind (body_dictGet (hkeys key (by simp)) (hh key (by simp)) fun r => ?_)
      rcases r with _ | (_ | _ | _ | _)
      · exact hgo _
      · exact all_pure ⟨rfl, fun _ => by simp⟩
      · exact all_pure ⟨rfl, fun _ => by simp⟩
      · exact all_pure ⟨rfl, fun _ => by simp⟩
      · exact hgo _

/-- The keys of MSET: every other argument. -/
def Spec.evens : List Slice → List Bytes
  | k :: _ :: rest => str k :: Spec.evens rest
  | _ => []

theorem pairUp_keys (l : List Slice) : (pairUp l).map (·.1) = Spec.evens l := by
  fun_induction pairUp l
  · next ih => simp only [List.map_cons, ih, Spec.evens]
  · next l h =>
    rcases l with _ | ⟨a, _ | ⟨b, l⟩⟩
    · rfl
    · rfl
    · exact absurd rfl (h a b l)

theorem disc_mSetString (hK : ∀ k ∈ Spec.evens args, K k) : (mSetString c (n :: args)).Disc c K (Done W) [] := by
  unfold mSetString
  split
  · exact disc_pure ⟨rfl, fun _ => by simp⟩
  · simp only [List.drop_succ_cons, List.drop_zero]
    refine disc_withMLock (all_bind (body_mSetLoop ?_ ?_ fun _ => all_pure ⟨rfl, fun _ => by simp⟩))
    · intro x hx
      exact hK _ (by rw [← pairUp_keys]; exact List.mem_map_of_mem hx)
    · intro x hx
      exact mem_heldAll (List.mem_map_of_mem hx)

/-! ### KEYS -/

theorem disc_keysSegLoop {R : Held → List Bytes → Prop} (hK : ∀ k, K k) (hR : ∀ r, R [] r) (len : Nat) (acc : List Bytes) (i m : Nat) :
    (keysSegLoop len acc i m).Disc c K R [] := by
  induction m generalizing acc i with
  | zero => exact disc_pure (hR _)
  | succ m ih =>
    refine disc_bind (disc_op (o := .dictSegKeys _) ⟨rfl, hK⟩ fun _ => disc_bind (disc_op (o := .order _) trivial fun _ => ?_))
    split
    · exact disc_fault
    · exact ih _ _

theorem disc_keysLoop {R : Held → List Item → Prop} (hK : ∀ k, K k) (p : Bytes) (res : List Item) (hres : ∀ x ∈ res, x.Clean)
    (hR : ∀ r : List Item, (∀ x ∈ r, x.Clean) → R [] r) (ks : List Bytes) : (keysLoop c p res ks).Disc c K R [] := by
  induction ks generalizing res with
  | nil => exact disc_pure (hR _ hres)
  | cons k ks ih =>
    refine disc_bind (disc_check (hK k) fun b => ?_)
    split
    · exact ih _ hres
    · split
      · exact disc_fault
      · refine ih _ fun x hx => ?_
        rcases List.mem_append.1 hx with h | h
        · exact hres x h
        · rw [List.mem_singleton.1 h]; trivial
      · exact ih _ hres

theorem disc_keysKey (hK : ∀ k, K k) : (keysKey c (n :: args)).Disc c K (Done W) [] := by
  unfold keysKey
  split
  · refine disc_bind (disc_bind (disc_op (o := .dictCount) ⟨rfl, hK⟩ fun _ => ?_))
    split
    · exact disc_fault
    · refine disc_bind (disc_op (o := .dictSize) ⟨rfl, hK⟩ fun _ => disc_bind (disc_keysSegLoop c hK (fun _ => ?_) _ _ _ _))
      refine disc_pure (disc_bind (disc_keysLoop c hK _ [] (by simp) (fun r hr => ?_) _))
      exact disc_pure ⟨rfl, fun _ => hr⟩
  · exact disc_pure ⟨rfl, fun _ => by simp⟩

end
end GRedis
