import Verif.Props.Sift
import Verif.Props.Keys
import Verif.Props.Hash
import Verif.Props.Lists
import Verif.Props.Sets
/-
What the commands do in the cases that the claims marked partial leave out.
-/
namespace GRedis
open Prog Spec
set_option linter.unusedSimpArgs false

section
variable (c : Cfg) (env : Env) (s : St) (n k : Slice)

/-- C13, the end position 2^63-1: nothing of the string is answered. -/
theorem C13_getrange_max (a b : Slice) (lo : Int) (hI : s.db.Inv) (ha : IntArg (str a) lo) (hb : IntArg (str b) (2 ^ 63 - 1)) :
    Runs env (command c b!"getrange" [n, k, a, b]) s fun r s' =>
      s'.db.view = live env s (str k) ∧
      match live env s (str k) (str k) with
      | none => r = replyBulk (some [])
      | some ⟨.str _, _⟩ => r = replyBulk (some [])
      | some _ => IsErr r := by
  simp only [command_getrange]
  simp only [getRangeString, Runs, wp_bind]
  refine wp_check env c _ s _ fun b1 s1 hc => ?_
  rw [hc.live]
  have hI1 := hc.inv hI
  cases b1
  · simp only [(atoi_iff _ _).2 ha, (atoi_iff _ _).2 hb]
    rcases hd : s1.db.dict.get (str k) with _ | v
    · simp [hd, hI1, Db.view_none, rBulk]
    · rw [Db.view_some hd]
      cases v with
      | str v =>
        have hg : getRangeBounds (slen v) lo (2 ^ 63 - 1) = none := by
          have h1 : wrap64 (2 ^ 63 - 1 + 1) = -2 ^ 63 := by decide
          unfold getRangeBounds
          simp only [show ¬ ((2 : Int) ^ 63 - 1 < 0) by decide, if_false, h1]
          rw [if_pos (.inr (.inr (by decide)))]
        simp only [Bool.false_eq_true, if_false, wp_withRLock, wp_bind, wp_dictGet, hd, Val.abs, hg, wp_pure, rBulk]
        exact ⟨hI1, trivial, trivial⟩
      | _ => simp [hd, hI1, Val.abs, eNotStr, isErr_rErr]
  · rw [Db.view_none (hc.gone rfl)]
    exact ⟨hI1, rfl, rfl⟩

/-- C19, the answer of PERSIST: 0 exactly when the key was there and had expired, 1 in all other cases. -/
theorem C19_persist_actual (hI : s.db.Inv) :
    Runs env (command c b!"persist" [n, k]) s fun r s' =>
      s'.db.view = (live env s (str k)).put (str k) ((live env s (str k) (str k)).map fun e => ⟨e.val, none⟩) ∧
      ((∃ e, s.db.view (str k) = some e ∧ e.expiredAt (env.clock s.tick)) → r = replyInt 0) ∧
      ((∀ e, s.db.view (str k) = some e → ¬ e.expiredAt (env.clock s.tick)) → r = replyInt 1) := by
  simp only [command_persist]
  simp only [persistKey, Runs, wp_bind]
  refine wp_check env c _ s _ fun b s1 hc => ?_
  have hI1 := hc.inv hI
  have hex : b = true ↔ ∃ e, s.db.view (str k) = some e ∧ e.expiredAt (env.clock s.tick) := by
    rw [hc.iff]
    constructor
    · rintro ⟨d, hd, hlt⟩
      obtain ⟨v, hv⟩ := Option.isSome_iff_exists.1 (hI.sub (str k) (by simp [hd]))
      exact ⟨_, Db.view_some hv, d, hd, hlt⟩
    · rintro ⟨e, he, d, hd, hlt⟩
      rcases hv : s.db.dict.get (str k) with _ | v
      · rw [Db.view_none hv] at he; cases he
      · rw [Db.view_some hv] at he; cases he; exact ⟨d, hd, hlt⟩
  rw [hc.live]
  cases b
  · simp only [Bool.false_eq_true, if_false, wp_withLock, wp_bind, wp_deleteExpire, wp_pure]
    exact ⟨hI1.delT _, Db.view_delT .., fun h => absurd (hex.2 h) (by decide), fun _ => rfl⟩
  · have hg := Db.view_none (hc.gone rfl)
    refine ⟨hI1, ?_, fun _ => rfl, fun h => ?_⟩
    · rw [hg, Option.map_none]
      have := Store.put_same s1.db.view (str k)
      rw [hg] at this; exact this.symm
    · obtain ⟨e, he, hx⟩ := hex.1 rfl
      exact absurd hx (h e he)

/-- C27, a rejected increment on an absent key: an error is answered and an empty hash is left behind. -/
theorem C27_rejected (fd i : Slice) (hI : s.db.Inv) (habs : live env s (str k) (str k) = none) :
    ((∀ d, ¬ IntArg (str i) d) → Runs env (command c b!"hincrby" [n, k, fd, i]) s fun r s' => IsErr r ∧
      s'.db.view = (live env s (str k)).put (str k) (some ⟨.hash fun _ => none, none⟩)) ∧
    (c.fl.parse (str i) = none → Runs env (command c b!"hincrbyfloat" [n, k, fd, i]) s fun r s' => IsErr r ∧
      s'.db.view = (live env s (str k)).put (str k) (some ⟨.hash fun _ => none, none⟩)) := by
  simp only [command_hincrby, command_hincrbyfloat]
  refine ⟨fun h => ?_, fun h => ?_⟩
  · simp only [hIncrByHash, Runs, wp_bind]
    refine wp_check env c _ s _ fun b s1 hc => ?_
    rw [hc.live] at habs ⊢
    have hI1 := hc.inv hI
    simp only [wp_withLock, wp_bind, getOrCreate, wp_dictGet]
    rcases hd : s1.db.dict.get (str k) with _ | v
    · simp only [wp_bind, wp_dictSet, wp_pure, (atoi_none_iff _).2 h]
      refine ⟨hI1.setV _ (by simp [Val.WF]), isErr_rErr _, ?_⟩
      rw [Db.view_setV, hI1.exp_none _ hd]; rfl
    · rw [Db.view_some hd] at habs; cases habs
  · simp only [hIncrByFloatHash, hIncrByFloatHash.eFloat, Runs, wp_bind]
    refine wp_check env c _ s _ fun b s1 hc => ?_
    rw [hc.live] at habs ⊢
    have hI1 := hc.inv hI
    simp only [wp_withLock, wp_bind, getOrCreate, wp_dictGet]
    rcases hd : s1.db.dict.get (str k) with _ | v
    · simp only [wp_bind, wp_dictSet, wp_pure, h]
      refine ⟨hI1.setV _ (by simp [Val.WF]), isErr_rErr _, ?_⟩
      rw [Db.view_setV, hI1.exp_none _ hd]; rfl
    · rw [Db.view_some hd] at habs; cases habs

theorem lRemove_min (l : ListT) (el : Slice) : lRemove l el (-2 ^ 63) = (l, 0) := by
  have h1 : wrap64 (-(-2 ^ 63)) = -2 ^ 63 := by decide
  unfold lRemove
  simp only [show ¬ ((-2 ^ 63 : Int) = 0) by decide, show ¬ ((-2 ^ 63 : Int) > 0) by decide, if_false, h1]
  split
  · rfl
  · rcases hl : l.reverse with _ | ⟨x, xs⟩
    · simp [removeLoop]; simpa using hl
    · have : l = (x :: xs).reverse := by rw [← hl, List.reverse_reverse]
      rw [removeLoop, if_neg (by decide), ← this]

/-- C32, the smallest count: nothing is removed. -/
theorem C32_lrem_min (i el : Slice) (hI : s.db.Inv) (hi : IntArg (str i) (-2 ^ 63)) :
    Runs env (command c b!"lrem" [n, k, i, el]) s fun r s' =>
      match live env s (str k) (str k) with
      | none => r = replyInt 0 ∧ s'.db.view = live env s (str k)
      | some ⟨.list l, ttl⟩ => r = replyInt 0 ∧ s'.db.view = (live env s (str k)).putList (str k) l ttl
      | some _ => IsErr r ∧ s'.db.view = live env s (str k) := by
  simp only [command_lrem]
  simp only [lRemList, Runs, wp_bind]
  refine wp_check env c _ s _ fun b s1 hc => ?_
  rw [hc.live]
  have hI1 := hc.inv hI
  cases b
  · simp only [Bool.false_eq_true, if_false, (atoi_iff _ _).2 hi, wp_withLock, wp_bind, wp_dictGet]
    rcases hd : s1.db.dict.get (str k) with _ | v
    · rw [Db.view_none hd]; exact ⟨hI1, rfl, rfl⟩
    · have hv := Db.view_some hd
      rw [hv]
      cases v with
      | list l =>
        have hput := fun l' => view_put_cleanup l' hv hI1
        simp only [wp_bind, wp_objPut, wp_cleanup, wp_pure, Val.abs, lRemove_min]
        exact ⟨(hput _).1, rfl, (hput _).2⟩
      | _ => simp [hI1, Val.abs, eWrong, isErr_rErr]
  · rw [Db.view_none (hc.gone rfl)]; exact ⟨hI1, rfl, rfl⟩

/-- C43, C41: SRANDMEMBER with count 0 answers nil whatever the key holds. -/
theorem C43_srandmember_zero (i : Slice) (hI : s.db.Inv) (hi : IntArg (str i) 0) :
    Runs env (command c b!"srandmember" [n, k, i]) s fun r s' => r = replyNil ∧ s'.db.view = live env s (str k) := by
  simp only [command_srandmember]
  simp only [sRandMemberSet, Runs, wp_bind]
  refine wp_check env c _ s _ fun b s1 hc => ?_
  rw [hc.live]
  have hI1 := hc.inv hI
  cases b
  · simp only [Bool.false_eq_true, if_false, (atoi_iff _ _).2 hi, if_true, wp_pure, rNil]
    exact ⟨hI1, trivial, trivial⟩
  · exact ⟨hI1, rfl, rfl⟩

/-- C35, a source that is no list: an error is answered, and a destination that is absent becomes an empty list all the same. -/
theorem C35_wrong_source (a b x y : Slice) (sl dl : Bool) (e : Entry) (hI : s.db.Inv)
    (hx : CaseEq (str x) (if sl then b!"left" else b!"right")) (hy : CaseEq (str y) (if dl then b!"left" else b!"right"))
    (ha : s.db.view (str a) = some e) (hlive : ∀ i, s.tick ≤ i → ¬ e.expiredAt (env.clock i)) (hk : ∀ l, e.val ≠ .list l) :
    Runs env (command c b!"lmove" [n, a, b, x, y]) s fun r s' => IsErr r ∧
      ∃ t, (t = env.clock s.tick ∨ t = env.clock (s.tick + 1)) ∧
        s'.db.view = match s.db.view.reap t (str b) (str b) with
          | none => (s.db.view.reap t (str b)).put (str b) (some ⟨.list [], none⟩)
          | some _ => s.db.view.reap t (str b) := by
  simp only [command_lmove]
  have hlx := toLower_of_caseEq hx
  have hly := toLower_of_caseEq hy
  simp only [lMoveList, Runs, wp_bind]
  refine wp_check env c _ s _ fun b1 s1 hc => ?_
  have hI1 := hc.inv hI
  have ht : env.clock s1.tick = env.clock s.tick ∨ env.clock s1.tick = env.clock (s.tick + 1) := by
    have h1 := hc.tick1
    have h2 := hc.tick2
    rcases Nat.lt_or_ge s1.tick (s.tick + 1) with h | h
    · left; congr 1; omega
    · right; congr 1; omega
  have key : ∀ {s0 : St} {j : Slice} {b0 : Bool} {s2 : St}, Checked env s0 (str j) b0 s2 → s0.db.Inv → s.tick ≤ s0.tick →
      s0.db.view (str a) = some e → s2.db.view (str a) = some e := by
    intro s0 j b0 s2 hc hI0 ht h0
    rw [hc.view]
    by_cases hj : str a = str j
    · rw [← hj, Store.reap_live h0 (hlive _ ht)]
    · rw [Store.reap_ne _ _ hj, h0]
  cases b1
  · have hs1 := hc.same rfl
    simp only [Bool.false_eq_true, if_false, wp_bind]
    refine wp_check env c _ s1 _ fun b2 s2 hc2 => ?_
    have hI2 := hc2.inv hI1
    have ha2 := key hc2 hI1 hc.tick1 (by rw [hs1]; exact ha)
    rw [hlx, hly]
    rw [if_neg (by cases sl <;> cases dl <;> simp)]
    simp only [wp_withMLock, wp_bind, wp_dictGet]
    have hσ : s2.db.view = s.db.view.reap (env.clock s1.tick) (str b) := by rw [hc2.view, hs1]
    rcases hd : s2.db.dict.get (str a) with _ | v
    · rw [Db.view_none hd] at ha2; cases ha2
    · rw [Db.view_some hd] at ha2
      cases ha2
      have hv : ∀ l, v ≠ .list l := by rintro l rfl; exact hk l rfl
      simp only [getOrCreate, wp_bind, wp_dictGet]
      rcases hdb : s2.db.dict.get (str b) with _ | w
      · simp only [wp_bind, wp_dictSet, wp_pure]
        have hfin : (s2.db.setV (str b) (.list [])).view = (s2.db.view).put (str b) (some ⟨.list [], none⟩) := by
          rw [Db.view_setV, hI2.exp_none _ hdb]; rfl
        have hm := Db.view_none hdb
        cases v with
        | list l => exact absurd rfl (hv l)
        | _ =>
          refine ⟨hI2.setV _ trivial, isErr_rErr _, _, ht, ?_⟩
          rw [← hσ, hm]; exact hfin
      · have hm := Db.view_some hdb
        simp only [wp_pure]
        cases v with
        | list l => exact absurd rfl (hv l)
        | _ =>
          refine ⟨hI2, isErr_rErr _, _, ht, ?_⟩
          rw [← hσ, hm]
  · have := key hc hI (Nat.le_refl _) ha
    rw [Db.view_none (hc.gone rfl)] at this; cases this

end

example : Witness.reply (command Witness.cfg b!"getrange" [none, some b!"k", some b!"1", some b!"9223372036854775807"])
    (Witness.st [(b!"k", .str (some b!"abc"), none)]) = .ok (replyBulk (some [])) := by decide +kernel
example : Witness.reply (command Witness.cfg b!"persist" [none, some b!"k"]) (Witness.st [(b!"k", .str (some b!"abc"), some 50)]) = .ok (replyInt 0) ∧
    Witness.reply (command Witness.cfg b!"persist" [none, some b!"m"]) (Witness.st [(b!"k", .str (some b!"abc"), some 50)]) = .ok (replyInt 1) := by
  decide +kernel
example : Witness.after (command Witness.cfg b!"hincrby" [none, some b!"k", some b!"f", some b!"x"]) (Witness.st []) b!"k" =
    .ok (some (.hash []), none) := by decide +kernel
example : Witness.after (command Witness.cfg b!"lrem" [none, some b!"k", some b!"-9223372036854775808", some b!"a"])
    (Witness.st [(b!"k", .list [some b!"a", some b!"b"], some 500)]) b!"k" = .ok (some (.list [some b!"a", some b!"b"]), some 500) := by decide +kernel
example : Witness.after (command Witness.cfg b!"lmove" [none, some b!"a", some b!"b", some b!"LEFT", some b!"right"])
    (Witness.st [(b!"a", .set [b!"x"], none), (b!"b", .list [some b!"y"], some 50)]) b!"b" = .ok (some (.list []), none) := by decide +kernel
example : Witness.reply (command Witness.cfg b!"srandmember" [none, some b!"a", some b!"-0"])
    (Witness.st [(b!"a", .list [some b!"x"], none)]) = .ok replyNil := by decide +kernel

/-! ### C10: EX with anything -/

theorem parseInt_range (b : Bytes) : InI64 (parseInt b).1 := by
  unfold parseInt InI64
  cases b with
  | nil => simp
  | cons a as =>
    simp only
    rcases splitSign (a :: as) with ⟨neg, ds⟩
    simp only
    rcases hp : parseUint ds with e | un
    · cases e <;> cases neg <;> simp
    · obtain ⟨_, hlt⟩ := (parseUint_ok ds un).1 hp
      cases neg
      · by_cases h : un ≥ 9223372036854775808
        · simp [h]
        · simp [h]; omega
      · by_cases h : un > 9223372036854775808
        · simp [h]
        · simp [h]; omega

theorem parseInt_word {b : Bytes} (h : ∀ y ys, b = y :: ys → ¬ IsDigit y ∧ y ≠ 43 ∧ y ≠ 45) : (parseInt b).1 = 0 := by
  cases b with
  | nil => rfl
  | cons a as =>
    obtain ⟨h1, h2, h3⟩ := h a as rfl
    have hs : splitSign (a :: as) = (false, a :: as) := by
      rcases splitSign_cases (a :: as) with ⟨r, he, -⟩ | ⟨r, he, -⟩ | ⟨-, -, he⟩
      · exact absurd (List.cons.inj he).1 h2
      · exact absurd (List.cons.inj he).1 h3
      · exact he
    have hd : isDigit a = false := by
      cases hx : isDigit a with
      | false => rfl
      | true => exact absurd ((isDigit_iff a).1 hx) h1
    simp [parseInt, hs, parseUint, parseUintLoop, hd]

/-- **C10.**  What EX makes of a text: the number if it is one that fits in 64 bits, some other number if not, and 0 if it does not begin like a
number.  EX never refuses its argument; SET does what it does with that number. -/
theorem C10_set_ex_any (t : Slice) :
    ∃ d : Slice, ∃ x, IntArg (str d) x ∧ (∀ y, IntArg (str t) y → x = y) ∧
      ((∀ y ys, str t = y :: ys → ¬ IsDigit y ∧ y ≠ 43 ∧ y ≠ 45) → x = 0) ∧
      ∀ (c : Cfg) (n k v w : Slice) (os : List SetOpt) (args rest : List Slice), SetArgs os args → CaseEq (str w) b!"ex" →
        command c b!"set" (n :: k :: v :: (args ++ w :: t :: rest)) = command c b!"set" (n :: k :: v :: (args ++ w :: d :: rest)) := by
  have hx : IntArg (str (some (fmtInt (parseInt (str t)).1))) (parseInt (str t)).1 :=
    (atoi_iff _ _).1 (atoi_fmtInt _ (parseInt_range _))
  refine ⟨some (fmtInt (parseInt (str t)).1), (parseInt (str t)).1, hx, fun y hy => by rw [parseInt_of_intArg hy], parseInt_word,
    fun c n k v w os args rest ha hw => ?_⟩
  have e : parseSetOpts {} (args ++ w :: t :: rest) = parseSetOpts {} (args ++ w :: some (fmtInt (parseInt (str t)).1) :: rest) := by
    rw [parseSetOpts_append ha, parseSetOpts_append ha, parseSetOpts.eq_def, parseSetOpts.eq_def _ (w :: some _ :: rest)]
    simp [toLower_of_caseEq hw, parseInt_of_intArg hx]
  simp only [command_set, setString, e]

/-- Example: `SET k v EX soon` stores the value with a deadline of now. -/
example : Witness.after (command Witness.cfg b!"set" [none, some b!"k", some b!"v", some b!"EX", some b!"soon"]) (Witness.st []) b!"k" =
    .ok (some (.str (some b!"v")), some 100) := by decide +kernel

end GRedis
