import Verif.Props.Board
import Verif.Props.Keys
/-
C104: one connection prepares a list at one key and publishes it with RENAME; the others read it.
-/
namespace GRedis
open Prog Spec

namespace Spec

instance decFoldsRpush (b : Bytes) : Decidable (Folds b b!"rpush") := decidable_of_iff _ (toLower_folds (by decide))
instance decFoldsRename (b : Bytes) : Decidable (Folds b b!"rename") := decidable_of_iff _ (toLower_folds (by decide))

/-- What has been written of the next edition, and the editions published. -/
structure Press where
  draft : List Slice
  out : List (List Slice)
  deriving DecidableEq

/-- What a command of the publisher adds: RPUSH to `tmp` continues the draft, RENAME from `tmp` to `pub` publishes it, if there is any. -/
def Press.next (tmp pub : Bytes) (P : Press) : List Slice → Press
  | n :: k :: e :: es =>
    if Folds (str n) b!"rpush" ∧ str k = tmp then ⟨P.draft ++ e :: es, P.out⟩
    else if Folds (str n) b!"rename" ∧ str k = tmp ∧ str e = pub ∧ es = [] ∧ P.draft ≠ [] then ⟨[], P.out ++ [P.draft]⟩
    else P
  | _ => P

/-- All commands of the publisher. -/
def pressed (tmp pub : Bytes) (cmds : List (List Slice)) : Press := cmds.foldl (Press.next tmp pub) ⟨[], []⟩

/-- The editions that the commands of the publisher bring out, in order. -/
def published (tmp pub : Bytes) (cmds : List (List Slice)) : List (List Slice) := (pressed tmp pub cmds).out

/-- The commands of the publisher: RPUSH to `tmp`, RENAME from `tmp` to `pub`, and commands that leave both keys as they are. -/
inductive Publishing (tmp pub : Bytes) : List Slice → Prop
  | rpush {n k e : Slice} {es : List Slice} : Folds (str n) b!"rpush" → str k = tmp → Publishing tmp pub (n :: k :: e :: es)
  | rename {n k w : Slice} : Folds (str n) b!"rename" → str k = tmp → str w = pub → Publishing tmp pub [n, k, w]
  | bystander {cmd : List Slice} : Bystander tmp cmd → Bystander pub cmd → Publishing tmp pub cmd

/-- The reply lists the elements; if there are none it may be the null array. -/
def ListsAll (L : List Slice) (d : Data) : Prop := d = replyBulks L ∨ L = [] ∧ d = .array none

/-- The command reads the whole list at `key`: LRANGE from 0 to -1. -/
def ReadsAll (key : Bytes) (cmd : List Slice) : Prop :=
  ∃ n k a b : Slice, cmd = [n, k, a, b] ∧ Folds (str n) b!"lrange" ∧ str k = key ∧ IntArg (str a) 0 ∧ IntArg (str b) (-1)

end Spec

/-! ### Places in the order -/

/-- What comes before the `q`-th command of connection `i`; everything if there are not so many. -/
def ahead (i : Nat) : (q : Nat) → List Entry → List Entry
  | _, [] => []
  | 0, x :: l => if x.1 = i then [] else x :: ahead i 0 l
  | q + 1, x :: l => if x.1 = i then x :: ahead i q l else x :: ahead i (q + 1) l

theorem ahead_place {i : Nat} {y : List Slice × Data} : ∀ {q : Nat} {l : List Entry}, (doneBy i l)[q]? = some y →
    ∃ l2, l = ahead i q l ++ (i, y) :: l2
  | q, [], h => by simp [doneBy] at h
  | 0, x :: l, h => by
    unfold ahead
    by_cases hx : x.1 = i
    · rw [if_pos hx]
      simp only [doneBy, List.filterMap_cons, hx, if_true, List.getElem?_cons_zero, Option.some.injEq] at h
      exact ⟨l, by rw [← h, ← hx]; rfl⟩
    · rw [if_neg hx]
      have h' : (doneBy i l)[0]? = some y := by simpa [doneBy, List.filterMap_cons, hx] using h
      obtain ⟨l2, h2⟩ := ahead_place h'
      exact ⟨l2, by rw [List.cons_append, ← h2]⟩
  | q + 1, x :: l, h => by
    unfold ahead
    by_cases hx : x.1 = i
    · rw [if_pos hx]
      have h' : (doneBy i l)[q]? = some y := by simpa [doneBy, List.filterMap_cons, hx] using h
      obtain ⟨l2, h2⟩ := ahead_place h'
      exact ⟨l2, by rw [List.cons_append, ← h2]⟩
    · rw [if_neg hx]
      have h' : (doneBy i l)[q + 1]? = some y := by simpa [doneBy, List.filterMap_cons, hx] using h
      obtain ⟨l2, h2⟩ := ahead_place h'
      exact ⟨l2, by rw [List.cons_append, ← h2]⟩

theorem ahead_prefix (i : Nat) : ∀ (q : Nat) (l : List Entry), ahead i q l <+: l
  | q, [] => by simp [ahead]
  | 0, x :: l => by
    unfold ahead
    split
    · exact List.nil_prefix
    · exact List.cons_prefix_cons.2 ⟨rfl, ahead_prefix i 0 l⟩
  | q + 1, x :: l => by
    unfold ahead
    split
    · exact List.cons_prefix_cons.2 ⟨rfl, ahead_prefix i q l⟩
    · exact List.cons_prefix_cons.2 ⟨rfl, ahead_prefix i (q + 1) l⟩

/-- A command among the first ones comes before their end. -/
theorem ahead_early (i : Nat) : ∀ (q : Nat) (l1 l2 : List Entry), q < (doneBy i l1).length → ahead i q (l1 ++ l2) <+: l1
  | q, [], _, h => by simp [doneBy] at h
  | 0, x :: l1, l2, h => by
    rw [List.cons_append]
    unfold ahead
    by_cases hx : x.1 = i
    · rw [if_pos hx]; exact List.nil_prefix
    · rw [if_neg hx]
      exact List.cons_prefix_cons.2 ⟨rfl, ahead_early i 0 l1 l2 (by simpa [doneBy, List.filterMap_cons, hx] using h)⟩
  | q + 1, x :: l1, l2, h => by
    rw [List.cons_append]
    unfold ahead
    by_cases hx : x.1 = i
    · rw [if_pos hx]
      exact List.cons_prefix_cons.2 ⟨rfl, ahead_early i q l1 l2 (by simpa [doneBy, List.filterMap_cons, hx] using h)⟩
    · rw [if_neg hx]
      exact List.cons_prefix_cons.2 ⟨rfl, ahead_early i (q + 1) l1 l2 (by simpa [doneBy, List.filterMap_cons, hx] using h)⟩

/-- A command that is not among the first ones comes after their end. -/
theorem ahead_late (i : Nat) : ∀ (q : Nat) (l1 l2 : List Entry), (doneBy i l1).length ≤ q → l1 <+: ahead i q (l1 ++ l2)
  | q, [], _, _ => List.nil_prefix
  | 0, x :: l1, l2, h => by
    rw [List.cons_append]
    unfold ahead
    by_cases hx : x.1 = i
    · simp [doneBy, hx] at h
    · rw [if_neg hx]
      exact List.cons_prefix_cons.2 ⟨rfl, ahead_late i 0 l1 l2 (by simpa [doneBy, List.filterMap_cons, hx] using h)⟩
  | q + 1, x :: l1, l2, h => by
    rw [List.cons_append]
    unfold ahead
    by_cases hx : x.1 = i
    · rw [if_pos hx]
      exact List.cons_prefix_cons.2 ⟨rfl, ahead_late i q l1 l2 (by simpa [doneBy, List.filterMap_cons, hx] using h)⟩
    · rw [if_neg hx]
      exact List.cons_prefix_cons.2 ⟨rfl, ahead_late i (q + 1) l1 l2 (by simpa [doneBy, List.filterMap_cons, hx] using h)⟩

theorem done_prefix {i : Nat} {l l' : List Entry} (h : l <+: l') : (doneBy i l).map (·.1) <+: (doneBy i l').map (·.1) := by
  obtain ⟨l2, rfl⟩ := h
  rw [doneBy_append, List.map_append]
  exact List.prefix_append _ _

/-! ### The press -/

section
variable {c : Cfg} {env : Env} {H : Int} {tmp pub : Bytes}

theorem next_out (P : Press) (cmd : List Slice) : P.out <+: (P.next tmp pub cmd).out := by
  unfold Press.next
  split
  · split
    · exact List.prefix_rfl
    · split
      · exact List.prefix_append _ _
      · exact List.prefix_rfl
  · exact List.prefix_rfl

theorem foldl_out (P : Press) (cmds : List (List Slice)) : P.out <+: (cmds.foldl (Press.next tmp pub) P).out := by
  induction cmds generalizing P with
  | nil => exact List.prefix_rfl
  | cons cmd cmds ih => exact (next_out P cmd).trans (ih _)

theorem published_prefix {A B : List (List Slice)} (h : A <+: B) : published tmp pub A <+: published tmp pub B := by
  obtain ⟨C, rfl⟩ := h
  unfold published pressed
  rw [List.foldl_append]
  exact foldl_out _ _

theorem next_bystander {P : Press} {cmd : List Slice} (h : Bystander tmp cmd) : P.next tmp pub cmd = P := by
  unfold Press.next
  split
  · next n k e es =>
    rw [if_neg, if_neg]
    · rintro ⟨hn, hk, _⟩
      exact bystander_names h (w := b!"rename") (ka := .firstTwo) (by decide +kernel) (by decide +kernel) hn (by simp [KeyArgs.Names, hk])
    · rintro ⟨hn, hk⟩
      exact bystander_names h (w := b!"rpush") (ka := .first) (by decide +kernel) (by decide +kernel) hn (by simp [KeyArgs.Names, hk])
  · rfl

/-- The two keys: at `tmp` there is the draft, at `pub` the last edition. -/
structure Stand (H : Int) (tmp pub : Bytes) (L : List Slice) (σ : Store) (P : Press) : Prop where
  draft : σ tmp = if P.draft = [] then none else some ⟨.list P.draft, none⟩
  edition : asList (σ pub) = some ((L :: P.out).getLast (by simp))
  last : ∀ t, ttlOf (σ pub) = some t → H ≤ t

theorem Stand.draft_ttl {L : List Slice} {σ : Store} {P : Press} (h : Stand H tmp pub L σ P) (t : Int) (ht : ttlOf (σ tmp) = some t) : H ≤ t := by
  rw [h.draft] at ht
  split at ht <;> cases ht

theorem Stand.draft_list {L : List Slice} {σ : Store} {P : Press} (h : Stand H tmp pub L σ P) : asList (σ tmp) = some P.draft := by
  rw [h.draft]
  split
  · next e => rw [e]; rfl
  · rfl

theorem between_all (l : List Slice) : between l 0 (-1) = l := by
  unfold between
  rw [List.filter_eq_self.2]
  · exact List.zipIdx_map_fst 0 l
  · rintro ⟨a, j⟩ hp
    have := (List.mem_zipIdx hp).2.1
    refine decide_eq_true ⟨?_, ?_⟩
    · simp [absPos]
    · simp [absPos]; omega

/-- A reader gets the edition that is out. -/
theorem stand_read {env' : Env} {s s' : Srv} {L : List Slice} {P : Press} {cmd : List Slice} {d : Data} (hI : s.Inv) (hclk : ∀ i, env'.clock i ≤ H)
    (hS : Stand H tmp pub L (s.view s.cur) P) (hc : ReadsAll pub cmd) (hr : execCommand c env' s cmd = .ok (d, s')) :
    ListsAll ((L :: P.out).getLast (by simp)) d := by
  obtain ⟨n, k, a, b, rfl, hn, rfl, ha, hb⟩ := hc
  obtain ⟨db, st, h1, h2, h3, h4, h5⟩ := exec_command (w := b!"lrange") (ka := .first) (by decide +kernel) hn hr
  obtain ⟨r, st', h6, _, _, h7⟩ := runs_iff.1 (C31_lrange c env' ⟨db, s.tick⟩ n k a b 0 (-1) (hI db (List.mem_of_getElem? h1)) ha hb)
  rw [h2] at h6; cases h6
  have hlive : live env' ⟨db, s.tick⟩ (str k) = db.view := reap_same fun t ht => by
    have := hS.last t (by rw [h4]; exact ht)
    have := hclk s.tick
    show env'.clock s.tick ≤ t
    omega
  rw [hlive, ← h4] at h7
  rcases asList_inv hS.edition with ⟨he, hl⟩ | ⟨ttl, he⟩
  · rw [he] at h7; exact .inr ⟨hl, h7⟩
  · rw [he] at h7; exact .inl (by rw [← between_all ((L :: P.out).getLast (by simp))]; exact h7)

/-- A command of the publisher. -/
theorem stand_publisher {env' : Env} {s s' : Srv} {L : List Slice} {P : Press} {cmd : List Slice} {d : Data} (hI : s.Inv) (hclk : ∀ i, env'.clock i ≤ H)
    (hne : tmp ≠ pub) (hS : Stand H tmp pub L (s.view s.cur) P) (hc : Publishing tmp pub cmd) (hr : execCommand c env' s cmd = .ok (d, s')) :
    s'.cur = s.cur ∧ Stand H tmp pub L (s'.view s.cur) (P.next tmp pub cmd) := by
  have hdb : ∀ db, s.dbs[s.cur]? = some db → db.Inv := fun db h => hI db (List.mem_of_getElem? h)
  have hlive : ∀ db, s.view s.cur = db.view → live env' ⟨db, s.tick⟩ tmp = db.view := by
    intro db hv
    refine reap_same fun t ht => ?_
    have := hS.draft_ttl t (by rw [hv]; exact ht)
    have := hclk s.tick
    show env'.clock s.tick ≤ t
    omega
  cases hc with
  | @rpush n k e es hn hk =>
    subst hk
    obtain ⟨db, st, h1, h2, h3, h4, h5⟩ := exec_command (w := b!"rpush") (ka := .first) (by decide +kernel) hn hr
    obtain ⟨r, st', h6, _, h7⟩ := runs_iff.1 (C30_rpush c env' ⟨db, s.tick⟩ n k (e :: es) (by simp) (hdb db h1))
    rw [h2] at h6; cases h6
    rw [hlive db h4, ← h4, hS.draft_list] at h7
    have httl : ttlOf (s.view s.cur (str k)) = none := by rw [hS.draft]; split <;> rfl
    rw [httl] at h7
    have hnext : P.next (str k) pub (n :: k :: e :: es) = ⟨P.draft ++ e :: es, P.out⟩ := by simp [Press.next, hn]
    have hother : s'.view s.cur pub = s.view s.cur pub := by rw [h5, h7.2, Store.put]; exact if_neg fun h => hne h.symm
    rw [hnext]
    refine ⟨h3, ?_, by rw [hother]; exact hS.edition, by rw [hother]; exact hS.last⟩
    rw [h5, h7.2, Store.put_self, if_neg (by simp)]
  | @rename n k w hn hk hw =>
    subst hk; subst hw
    obtain ⟨db, st, h1, h2, h3, h4, h5⟩ := exec_command (w := b!"rename") (ka := .firstTwo) (by decide +kernel) hn hr
    obtain ⟨r, st', h6, _, h7⟩ := runs_iff.1 (C22_rename c env' ⟨db, s.tick⟩ n k w (hdb db h1))
    rw [h2] at h6; cases h6
    rw [hlive db h4, ← h4, hS.draft] at h7
    have hr' : ¬ Folds (str n) b!"rpush" := fun h => absurd (not_both hn h (by decide) (by decide)) (by decide)
    refine ⟨h3, ?_⟩
    by_cases hd : P.draft = []
    · rw [if_pos hd] at h7
      have hnext : P.next (str k) (str w) [n, k, w] = P := by simp [Press.next, hr', hd]
      rw [hnext, h5, h7.2]; exact hS
    · rw [if_neg hd] at h7
      have hnext : P.next (str k) (str w) [n, k, w] = ⟨[], P.out ++ [P.draft]⟩ := by simp [Press.next, hr', hn, hd]
      rw [hnext, h5, h7.2]
      refine ⟨?_, ?_, fun t ht => ?_⟩
      · rw [if_pos rfl, Store.put, if_neg hne, Store.put_self]
      · rw [Store.put_self]
        show some P.draft = _
        simp only [← List.cons_append, List.getLast_concat]
      · rw [Store.put_self] at ht; cases ht
  | bystander hb hb' =>
    obtain ⟨h1, h2⟩ := bystander_step hI hclk hS.draft_ttl hb hr
    obtain ⟨_, h3⟩ := bystander_step hI hclk hS.last hb' hr
    rw [next_bystander hb]
    exact ⟨h1, by rw [h2]; exact hS.draft, by rw [h3]; exact hS.edition, by rw [h3]; exact hS.last⟩

/-- Commands executed one after the other. -/
theorem stand_run {s s' : Srv} {L : List Slice} {p : Nat} {l : List Entry} (hI : s.Inv) (hclk : ∀ i, env.clock i ≤ H) (hne : tmp ≠ pub)
    (hS : Stand H tmp pub L (s.view s.cur) ⟨[], []⟩) (hp : ∀ x ∈ l, x.1 = p → Publishing tmp pub x.2.1)
    (ho : ∀ x ∈ l, x.1 ≠ p → Bystander tmp x.2.1 ∧ Bystander pub x.2.1) (h : InTurn c env s l s') :
    s'.Inv ∧ s'.cur = s.cur ∧ Stand H tmp pub L (s'.view s.cur) (pressed tmp pub ((doneBy p l).map (·.1))) ∧
      ∀ l1 x l2, l = l1 ++ x :: l2 → ReadsAll pub x.2.1 → ListsAll ((L :: published tmp pub ((doneBy p l1).map (·.1))).getLast (by simp)) x.2.2 := by
  induction h with
  | refl => exact ⟨hI, rfl, hS, fun l1 x l2 h => by simp at h⟩
  | @step l s1 s2 i cmd d env' _ hfrom hr ih =>
    obtain ⟨hI1, hc1, hS1, h1⟩ := ih (fun x hx => hp x (List.mem_append_left _ hx)) (fun x hx => ho x (List.mem_append_left _ hx))
    rw [← hc1] at hS1
    have hclk' : ∀ i, env'.clock i ≤ H := fun i => by obtain ⟨j, hj⟩ := hfrom.clock i; rw [hj]; exact hclk j
    refine ⟨exec_inv hI1 hr, ?_⟩
    have hst : s2.cur = s1.cur ∧ Stand H tmp pub L (s2.view s1.cur) (pressed tmp pub ((doneBy p (l ++ [(i, cmd, d)])).map (·.1))) := by
      by_cases hi : i = p
      · have hq : Publishing tmp pub cmd := hp (i, cmd, d) (by simp) hi
        have := stand_publisher hI1 hclk' hne hS1 hq hr
        rw [pressed] at this
        rw [doneBy_append, List.map_append, pressed, List.foldl_append]
        simpa [doneBy, hi] using this
      · obtain ⟨hb, hb'⟩ : Bystander tmp cmd ∧ Bystander pub cmd := ho (i, cmd, d) (by simp) hi
        have := stand_publisher hI1 hclk' hne hS1 (.bystander hb hb') hr
        rw [next_bystander hb] at this
        rw [doneBy_append, show doneBy p [(i, cmd, d)] = [] by simp [doneBy, hi], List.append_nil]
        exact this
    rw [hc1] at hst
    refine ⟨hst.1, hst.2, fun l1 x l2 he hx => ?_⟩
    rcases List.eq_nil_or_concat l2 with rfl | ⟨l2', y, rfl⟩
    · obtain ⟨rfl, hxe⟩ := List.append_inj' he rfl
      cases hxe
      exact stand_read hI1 hclk' hS1 hx hr
    · rw [List.concat_eq_append, ← List.cons_append, ← List.append_assoc] at he
      obtain ⟨rfl, -⟩ := List.append_inj' he rfl
      exact h1 _ _ _ rfl hx

theorem publishing_tame {cmd : List Slice} (h : Publishing tmp pub cmd) (hb : Bystander tmp cmd → Tame c env H cmd) : Tame c env H cmd := by
  cases h with
  | rpush hn _ =>
    have := (toLower_folds (w := b!"rpush") (by decide)).2 hn
    exact tame_of ⟨by rw [this]; decide, by rw [this]; simp⟩ (by rw [this]; decide)
  | rename hn _ _ =>
    have := (toLower_folds (w := b!"rename") (by decide)).2 hn
    exact tame_of ⟨by rw [this]; decide, by rw [this]; simp⟩ (by rw [this]; decide)
  | bystander h _ => exact hb h

/-- **C104.**  Connection `p` writes lists piece by piece at `tmp` and publishes each with RENAME; the others read what is at `pub`,
however the goroutines interleave.  Every read lists one edition, whole: the one that was there at the beginning or one that `p` has
published.  The editions do not go back: a read called after another one was answered, by whomever, lists the same or a later one; after
the answer to a RENAME it lists that edition or a later one; and it lists none that had not been called for when it was answered. -/
theorem C104_editions {s : Srv} {n : Nat} {es : List Ev} {g : Hub} {L : List Slice} {p : Nat} (hI : s.Inv) (hclk : ∀ i, env.clock i ≤ H)
    (hcur : s.cur < s.dbs.length) (hlast : ∀ db ∈ s.dbs, ∀ k t, db.exp.get k = some t → H ≤ t) (hne : tmp ≠ pub)
    (htmp : s.view s.cur tmp = none) (hpub : asList (s.view s.cur pub) = some L)
    (hq : ∀ i cmd, .call i cmd ∈ es → (i = p → Publishing tmp pub cmd) ∧ (i ≠ p → Bystander tmp cmd ∧ Bystander pub cmd) ∧
      (Bystander tmp cmd → Tame c env H cmd)) (h : HubRun c env (Hub.start s n) es g) :
    ∃ edition : Nat → Nat → Nat,
      (∀ i q cmd d, (exchanges i es)[q]? = some (cmd, d) → ReadsAll pub cmd →
        ∃ E, (L :: published tmp pub (callsOf p es))[edition i q]? = some E ∧ ListsAll E d) ∧
      (∀ es1 es2, es = es1 ++ es2 → ∀ i q, q < (answersOf i es1).length →
        edition i q ≤ (published tmp pub (callsOf p es1)).length ∧
        ∀ j r, (callsOf j es1).length ≤ r → edition i q ≤ edition j r) ∧
      (∀ es1 es2, es = es1 ++ es2 → ∀ i q, (callsOf i es1).length ≤ q →
        (published tmp pub ((callsOf p es1).take (answersOf p es1).length)).length ≤ edition i q) := by
  have htame : ∀ i cmd, .call i cmd ∈ es → Tame c env H cmd := by
    intro i cmd hc
    obtain ⟨h1, h2, h3⟩ := hq i cmd hc
    by_cases hi : i = p
    · exact publishing_tame (h1 hi) h3
    · exact h3 (h2 hi).1
  obtain ⟨l, s', h1, h2, _, _⟩ := C69_linearizable_partial hclk hcur hlast htame h
  obtain ⟨_, _, _, h7⟩ := stand_run (p := p) hI hclk hne ⟨by rw [htmp]; rfl, hpub, fun t ht => view_lasts hlast ht⟩
    (fun x hx hi => (hq x.1 x.2.1 (explains_called h2 hx)).1 hi) (fun x hx hi => (hq x.1 x.2.1 (explains_called h2 hx)).2.1 hi) h1
  have mono : ∀ {a b : List Entry}, a <+: b → (published tmp pub ((doneBy p a).map (·.1))).length ≤ (published tmp pub ((doneBy p b).map (·.1))).length :=
    fun hab => (published_prefix (done_prefix hab)).length_le
  refine ⟨fun i q => (published tmp pub ((doneBy p (ahead i q l)).map (·.1))).length, fun i q cmd d hx hrd => ?_, fun es1 es2 he i q hlt => ?_,
    fun es1 es2 he i q hle => ?_⟩
  · obtain ⟨t, ht⟩ := exchanges_prefix h2 i
    have hx' : (doneBy i l)[q]? = some (cmd, d) := by
      rw [← ht]
      exact List.getElem?_append_left (List.getElem?_eq_some_iff.1 hx).1 ▸ hx
    obtain ⟨l2, hl⟩ := ahead_place hx'
    refine ⟨_, ?_, h7 _ _ _ hl hrd⟩
    obtain ⟨u, hu⟩ := published_prefix (tmp := tmp) (pub := pub) ((done_prefix (i := p) (ahead_prefix i q l)).trans (h2.1 p))
    rw [← hu, ← List.cons_append, List.getElem?_append_left (by simp), List.getLast_eq_getElem]
    exact List.getElem?_eq_getElem _
  · obtain ⟨l1, l2, rfl, h8⟩ := h2.2 es1 es2 he
    have hlen : q < (doneBy i l1).length := by
      have := (h8 i).2.length_le
      rw [List.length_map] at this
      omega
    have hb := ahead_early i q l1 l2 hlen
    refine ⟨((published_prefix (done_prefix (i := p) hb)).trans (published_prefix (h8 p).1)).length_le, fun j r hr => mono (hb.trans (ahead_late j r l1 l2 ?_))⟩
    have := (h8 j).1.length_le
    rw [List.length_map] at this
    omega
  · obtain ⟨l1, l2, rfl, h8⟩ := h2.2 es1 es2 he
    have hb := ahead_late i q l1 l2 (by
      have := (h8 i).1.length_le
      rw [List.length_map] at this
      omega)
    refine Nat.le_trans ?_ (mono hb)
    refine (published_prefix ?_).length_le
    obtain ⟨t, ht⟩ := (h8 p).1
    have := (h8 p).2.length_le
    rw [List.length_map] at this
    rw [← ht, List.take_append_of_le_length (by rw [List.length_map]; exact this)]
    exact List.take_prefix _ _

/-- **C104.**  When all is quiet the last edition is out, and what has been written since is at `tmp`. -/
theorem C104_out {s : Srv} {n : Nat} {es : List Ev} {g : Hub} {L : List Slice} {p : Nat} (hI : s.Inv) (hclk : ∀ i, env.clock i ≤ H)
    (hcur : s.cur < s.dbs.length) (hlast : ∀ db ∈ s.dbs, ∀ k t, db.exp.get k = some t → H ≤ t) (hne : tmp ≠ pub)
    (htmp : s.view s.cur tmp = none) (hpub : asList (s.view s.cur pub) = some L)
    (hq : ∀ i cmd, .call i cmd ∈ es → (i = p → Publishing tmp pub cmd) ∧ (i ≠ p → Bystander tmp cmd ∧ Bystander pub cmd) ∧
      (Bystander tmp cmd → Tame c env H cmd)) (h : HubRun c env (Hub.start s n) es g) (hpn : p < n) (hidle : ∀ x ∈ g.calls, x = .idle) :
    asList (g.holds pub) = some ((L :: published tmp pub (callsOf p es)).getLast (by simp)) ∧
      asList (g.holds tmp) = some (pressed tmp pub (callsOf p es)).draft := by
  have htame : ∀ i cmd, .call i cmd ∈ es → Tame c env H cmd := by
    intro i cmd hc
    obtain ⟨h1, h2, h3⟩ := hq i cmd hc
    by_cases hi : i = p
    · exact publishing_tame (h1 hi) h3
    · exact h3 (h2 hi).1
  obtain ⟨l, s', h1, h2, h3, h4⟩ := C69_linearizable_partial hclk hcur hlast htame h
  obtain ⟨_, h5, h6, _⟩ := stand_run (p := p) hI hclk hne ⟨by rw [htmp]; rfl, hpub, fun t ht => view_lasts hlast ht⟩
    (fun x hx hi => (hq x.1 x.2.1 (explains_called h2 hx)).1 hi) (fun x hx hi => (hq x.1 x.2.1 (explains_called h2 hx)).2.1 hi) h1
  have hlt : p < g.calls.length := by rw [(hub_callers h).1]; exact hpn
  have hc := (h3 p (by rw [List.getElem?_eq_getElem hlt, hidle _ (List.getElem_mem hlt)])).1
  rw [← hc] at h6
  rw [holds_eq pub (h4 (idle_quiet hidle)), holds_eq tmp (h4 (idle_quiet hidle)), h5]
  exact ⟨h6.edition, h6.draft_list⟩

end

namespace Witness

/-- A server whose one database holds the list `news`. -/
def gazette : Srv := ⟨[dbOf [(b!"news", .list [some b!"old"], none)]], 0, 0⟩

/-- The publisher writes an edition of two elements, and one element of another; a reader comes three times. -/
def gazetteActs : List Act :=
  [.call 0 [some b!"RPUSH", some b!"next", some b!"a"]] ++ List.replicate 10 (.go 0) ++
    [.call 1 [some b!"LRANGE", some b!"news", some b!"0", some b!"-1"]] ++ List.replicate 7 (.go 1) ++
    [.call 0 [some b!"rpush", some b!"next", some b!"b"]] ++ List.replicate 9 (.go 0) ++
    [.call 1 [some b!"lrange", some b!"news", some b!"0", some b!"-1"], .go 1, .go 1, .call 0 [some b!"RENAME", some b!"next", some b!"news"]] ++
    List.replicate 17 (.go 0) ++ List.replicate 5 (.go 1) ++
    [.call 0 [some b!"RPUSH", some b!"next", some b!"c"]] ++ List.replicate 10 (.go 0) ++
    [.call 1 [some b!"LRANGE", some b!"news", some b!"0", some b!"-1"]] ++ List.replicate 7 (.go 1)

/-- What is seen of it. -/
def gazetteSeen : List Ev :=
  [.call 0 [some b!"RPUSH", some b!"next", some b!"a"], .answer 0 (replyInt 1),
   .call 1 [some b!"LRANGE", some b!"news", some b!"0", some b!"-1"], .answer 1 (replyBulks [some b!"old"]),
   .call 0 [some b!"rpush", some b!"next", some b!"b"], .answer 0 (replyInt 2),
   .call 1 [some b!"lrange", some b!"news", some b!"0", some b!"-1"], .call 0 [some b!"RENAME", some b!"next", some b!"news"],
   .answer 0 replyOK, .answer 1 (replyBulks [some b!"a", some b!"b"]),
   .call 0 [some b!"RPUSH", some b!"next", some b!"c"], .answer 0 (replyInt 1),
   .call 1 [some b!"LRANGE", some b!"news", some b!"0", some b!"-1"], .answer 1 (replyBulks [some b!"a", some b!"b"])]

theorem gazette_inv : gazette.Inv := by
  intro db hdb
  simp only [gazette, List.mem_cons, List.not_mem_nil, or_false] at hdb
  subst hdb
  exact dbOf_inv _ (by decide)

theorem gazette_lasts : ∀ db ∈ gazette.dbs, ∀ k t, db.exp.get k = some t → 100 ≤ t := by
  intro db hdb k t ht
  simp only [gazette, List.mem_cons, List.not_mem_nil, or_false] at hdb
  subst hdb
  simp [dbOf, CMap.get_new] at ht

/-- Somebody reads `news`. -/
def LooksAt (cmd : List Slice) : Prop := ∃ n : Slice, cmd = [n, some b!"news", some b!"0", some b!"-1"] ∧ Folds (str n) b!"lrange"

theorem looksAt_reads {cmd : List Slice} (h : LooksAt cmd) : ReadsAll b!"news" cmd := by
  obtain ⟨n, rfl, hn⟩ := h
  exact ⟨n, _, _, _, rfl, hn, rfl, (atoi_iff _ _).1 (by decide +kernel), (atoi_iff _ _).1 (by decide +kernel)⟩

end Witness

/-- Example: readers and a publisher that brings out one edition of two elements, in any order.  What the readers get is the old list or the
whole new one, never a part. -/
example {n : Nat} {es : List Ev} {g : Hub} (h : HubRun Witness.cfg Witness.env (Hub.start Witness.gazette n) es g)
    (hp : callsOf 0 es <+: [[some b!"RPUSH", some b!"next", some b!"a"], [some b!"rpush", some b!"next", some b!"b"],
      [some b!"RENAME", some b!"next", some b!"news"], [some b!"RPUSH", some b!"next", some b!"c"]])
    (ho : ∀ i cmd, .call i cmd ∈ es → i ≠ 0 → Witness.LooksAt cmd) (i : Nat) (cmd : List Slice) (d : Data) (hi : i ≠ 0)
    (hx : (cmd, d) ∈ exchanges i es) : d = replyBulks [some b!"old"] ∨ d = replyBulks [some b!"a", some b!"b"] := by
  have hcalls : ∀ cmd, .call 0 cmd ∈ es → Publishing b!"next" b!"news" cmd ∧ Tame Witness.cfg Witness.env 100 cmd := by
    intro cmd hc
    have := hp.subset (callsOf_mem.2 hc)
    simp only [List.mem_cons, List.not_mem_nil, or_false] at this
    rcases this with rfl | rfl | rfl | rfl
    · exact ⟨.rpush (by decide +kernel) rfl, tame_of ⟨by decide, by decide⟩ (by decide)⟩
    · exact ⟨.rpush (by decide +kernel) rfl, tame_of ⟨by decide, by decide⟩ (by decide)⟩
    · exact ⟨.rename (by decide +kernel) rfl rfl, tame_of ⟨by decide, by decide⟩ (by decide)⟩
    · exact ⟨.rpush (by decide +kernel) rfl, tame_of ⟨by decide, by decide⟩ (by decide)⟩
  obtain ⟨f, h1, _⟩ := C104_editions (H := 100) (tmp := b!"next") (pub := b!"news") (L := [some b!"old"]) (p := 0) Witness.gazette_inv
    (fun _ => Int.le_refl _) (by decide) Witness.gazette_lasts (by decide) rfl rfl (by
      intro i cmd hc
      refine ⟨fun hi => (hcalls cmd (hi ▸ hc)).1, fun hi => ?_, fun _ => ?_⟩
      · obtain ⟨n, rfl, hn⟩ := ho i cmd hc hi
        exact ⟨.reads (by decide +kernel) hn, .reads (by decide +kernel) hn⟩
      · by_cases hi : i = 0
        · exact (hcalls cmd (hi ▸ hc)).2
        · obtain ⟨n, rfl, hn⟩ := ho i cmd hc hi
          have := (toLower_folds (w := b!"lrange") (by decide)).2 hn
          exact tame_of ⟨by rw [this]; decide, by rw [this]; simp⟩ (by rw [this]; decide)) h
  obtain ⟨q, hq⟩ := List.getElem?_of_mem hx
  have hcall : .call i cmd ∈ es := callsOf_mem.1 (List.of_mem_zip hx).1
  obtain ⟨E, h2, h3⟩ := h1 i q cmd d hq (Witness.looksAt_reads (ho i cmd hcall hi))
  have hpub := published_prefix (tmp := b!"next") (pub := b!"news") hp
  rw [show published b!"next" b!"news" [[some b!"RPUSH", some b!"next", some b!"a"], [some b!"rpush", some b!"next", some b!"b"],
      [some b!"RENAME", some b!"next", some b!"news"], [some b!"RPUSH", some b!"next", some b!"c"]] = [[some b!"a", some b!"b"]] by decide +kernel] at hpub
  have hE : E ∈ [[some b!"old"], [some b!"a", some b!"b"]] := by
    rcases List.mem_cons.1 (List.mem_of_getElem? h2) with rfl | h
    · simp
    · exact List.mem_cons_of_mem _ (hpub.subset h)
  simp only [List.mem_cons, List.not_mem_nil, or_false] at hE
  rcases hE with rfl | rfl
  · rcases h3 with h3 | ⟨h3, _⟩
    · exact .inl h3
    · cases h3
  · rcases h3 with h3 | ⟨h3, _⟩
    · exact .inr h3
    · cases h3

/-- There is such a run, with reads of both editions. -/
example : ∃ g : Hub, HubRun Witness.cfg Witness.env (Hub.start Witness.gazette 2) Witness.gazetteSeen g := by
  have key : ((Hub.start Witness.gazette 2).acts Witness.cfg Witness.env Witness.gazetteActs).map (·.1) = some Witness.gazetteSeen := by decide +kernel
  obtain ⟨⟨es, g⟩, h, he⟩ := Option.map_eq_some_iff.1 key
  subst he
  exact ⟨g, hub_acts h⟩

end GRedis
