import Verif.Props.Publish
/-
C107: a list to which connections push at the front and which they cut to a length is a timeline: readers get the newest entries.
-/
namespace GRedis
open Prog Spec

namespace Spec

instance decFoldsLpush (b : Bytes) : Decidable (Folds b b!"lpush") := decidable_of_iff _ (toLower_folds (by decide))
instance decFoldsLtrim (b : Bytes) : Decidable (Folds b b!"ltrim") := decidable_of_iff _ (toLower_folds (by decide))

/-- What a command posts to the timeline at `key`, the newest first. -/
def posts (key : Bytes) : List Slice → List Slice
  | n :: k :: es => if Folds (str n) b!"lpush" ∧ str k = key then es.reverse else []
  | _ => []

/-- Everything some commands have posted, the newest first. -/
def posted (key : Bytes) : List (List Slice) → List Slice
  | [] => []
  | cmd :: cmds => posted key cmds ++ posts key cmd

/-- The command cuts the list at `key` to its first `cap` elements. -/
def Cuts (key : Bytes) (cap : Nat) (cmd : List Slice) : Prop :=
  ∃ n k a b : Slice, cmd = [n, k, a, b] ∧ Folds (str n) b!"ltrim" ∧ str k = key ∧ IntArg (str a) 0 ∧ IntArg (str b) (cap - 1)

/-- The commands of the users of a timeline at `key`: LPUSH, LTRIM to the first `cap` elements, and commands that leave the key as it is,
among them those that read it. -/
inductive Posting (key : Bytes) (cap : Nat) : List Slice → Prop
  | push {n k e : Slice} {es : List Slice} : Folds (str n) b!"lpush" → str k = key → Posting key cap (n :: k :: e :: es)
  | cut {cmd : List Slice} : Cuts key cap cmd → Posting key cap cmd
  | bystander {cmd : List Slice} : Bystander key cmd → Posting key cap cmd

/-- The command reads the elements at the positions from `x` to `y` of the list at `key`. -/
def ReadsPart (key : Bytes) (x y : Nat) (cmd : List Slice) : Prop :=
  ∃ n k a b : Slice, cmd = [n, k, a, b] ∧ Folds (str n) b!"lrange" ∧ str k = key ∧ IntArg (str a) x ∧ IntArg (str b) y

end Spec

/-! ### Beginnings of lists -/

theorem between_zip {α : Type} (l : List α) (n a b : Nat) :
    ((l.zipIdx n).filter (fun p => decide (a ≤ p.2 ∧ p.2 ≤ b))).map (·.1) = (l.take (b + 1 - n)).drop (a - n) := by
  induction l generalizing n with
  | nil => simp
  | cons x l ih =>
    rw [List.zipIdx_cons, List.filter_cons]
    by_cases hb : n ≤ b
    · have e1 : b + 1 - n = (b + 1 - (n + 1)) + 1 := by omega
      rw [e1, List.take_succ_cons]
      by_cases ha : a ≤ n
      · rw [if_pos (by simp [ha, hb]), List.map_cons, ih]
        have e2 : a - n = 0 := by omega
        have e3 : a - (n + 1) = 0 := by omega
        rw [e2, e3, List.drop_zero, List.drop_zero]
      · rw [if_neg (by simp [ha]), ih]
        have e2 : a - n = (a - (n + 1)) + 1 := by omega
        rw [e2, List.drop_succ_cons]
    · rw [if_neg (by simp [hb]), ih]
      have e1 : b + 1 - n = 0 := by omega
      have e2 : b + 1 - (n + 1) = 0 := by omega
      rw [e1, e2, List.take_zero, List.take_zero, List.drop_nil, List.drop_nil]

/-- Positions counted from the front. -/
theorem between_front {α : Type} (l : List α) (x y : Nat) : between l (x : Int) (y : Int) = (l.take (y + 1)).drop x := by
  have h := between_zip l 0 x y
  simp only [Nat.sub_zero] at h
  rw [← h]
  unfold between
  congr 2
  funext p
  congr 1
  simp only [absPos, eq_iff_iff]
  rw [if_neg (by omega), if_neg (by omega)]
  omega

theorem take_agree {α : Type} {A B : List α} {m n : Nat} (h : A.take n = B.take n) (hm : m ≤ n) : A.take m = B.take m := by
  have := congrArg (List.take m) h
  rwa [List.take_take, List.take_take, Nat.min_eq_left hm] at this

theorem take_append_agree {α : Type} {A B : List α} {n : Nat} (p : List α) (h : A.take n = B.take n) : (p ++ A).take n = (p ++ B).take n := by
  rw [List.take_append, List.take_append, take_agree h (Nat.sub_le n p.length)]

section
variable {c : Cfg} {env : Env} {H : Int} {key : Bytes} {cap : Nat}

theorem posted_append (A B : List (List Slice)) : posted key (A ++ B) = posted key B ++ posted key A := by
  induction A with
  | nil => simp [posted]
  | cons a A ih => simp [posted, ih]

theorem posted_mem {e : Slice} {cmds : List (List Slice)} (h : e ∈ posted key cmds) : ∃ cmd ∈ cmds, e ∈ posts key cmd := by
  induction cmds with
  | nil => cases h
  | cons cmd cmds ih =>
    rcases List.mem_append.1 h with h | h
    · obtain ⟨x, hx, he⟩ := ih h
      exact ⟨x, List.mem_cons_of_mem _ hx, he⟩
    · exact ⟨cmd, List.mem_cons_self, h⟩

theorem mem_posted {e : Slice} {cmd : List Slice} {cmds : List (List Slice)} (h : cmd ∈ cmds) (he : e ∈ posts key cmd) : e ∈ posted key cmds := by
  induction cmds with
  | nil => cases h
  | cons x cmds ih =>
    rcases List.mem_cons.1 h with rfl | h
    · exact List.mem_append_right _ he
    · exact List.mem_append_left _ (ih h)

/-- The last one of its kind. -/
theorem last_such {α : Type} {P : α → Prop} {l : List α} (h : ∃ z ∈ l, P z) : ∃ l1 x l2, l = l1 ++ x :: l2 ∧ P x ∧ ∀ z ∈ l2, ¬ P z := by
  induction l with
  | nil => obtain ⟨z, hz, _⟩ := h; cases hz
  | cons a l ih =>
    by_cases hl : ∃ z ∈ l, P z
    · obtain ⟨l1, x, l2, rfl, hx, h2⟩ := ih hl
      exact ⟨a :: l1, x, l2, rfl, hx, h2⟩
    · obtain ⟨z, hz, hP⟩ := h
      rcases List.mem_cons.1 hz with rfl | hz
      · exact ⟨[], z, l, rfl, hP, fun y hy hy' => hl ⟨y, hy, hy'⟩⟩
      · exact (hl ⟨z, hz, hP⟩).elim

theorem bystander_posts {cmd : List Slice} (h : Bystander key cmd) : posts key cmd = [] := by
  unfold posts
  split
  · refine if_neg ?_
    rintro ⟨hn, hk⟩
    exact bystander_not h (by decide +kernel) (by decide +kernel) hn hk
  · rfl

theorem cuts_posts {cmd : List Slice} (h : Cuts key cap cmd) : posts key cmd = [] := by
  obtain ⟨n, k, a, b, rfl, hn, -⟩ := h
  refine if_neg fun hl => ?_
  exact absurd (not_both hn hl.1 (by decide) (by decide)) (by decide)

/-- What is stored of the timeline when everything posted is `A`. -/
structure Feed (H : Int) (key : Bytes) (cap : Nat) (e : Option Spec.Entry) (A : List Slice) : Prop where
  stored : ∃ w, asList e = some w ∧ w <+: A ∧ w.take cap = A.take cap
  filled : ∀ ttl, e ≠ some ⟨.list [], ttl⟩
  last : ∀ t, ttlOf e = some t → H ≤ t

/-- What a command of a user of the timeline does to it. -/
theorem timeline_step {env' : Env} {s s' : Srv} {cmd : List Slice} {d : Data} {A : List Slice} (hI : s.Inv) (hcap : 0 < cap)
    (hclk : ∀ i, env'.clock i ≤ H) (hS : Feed H key cap (s.view s.cur key) A) (hq : Posting key cap cmd)
    (hr : execCommand c env' s cmd = .ok (d, s')) :
    s'.cur = s.cur ∧ Feed H key cap (s'.view s.cur key) (posts key cmd ++ A) ∧
      (Cuts key cap cmd → ∀ w, asList (s'.view s.cur key) = some w → w.length ≤ cap) ∧
      (posts key cmd = [] → ∀ w w', asList (s.view s.cur key) = some w → asList (s'.view s.cur key) = some w' → w'.length ≤ w.length) ∧
      ∀ x y, ReadsPart key x y cmd → y < cap → ListsAll ((A.take (y + 1)).drop x) d := by
  have hdb : ∀ db, s.dbs[s.cur]? = some db → db.Inv := fun db h => hI db (List.mem_of_getElem? h)
  have hlive : ∀ db, s.view s.cur = db.view → live env' ⟨db, s.tick⟩ key = db.view := by
    intro db hv
    refine reap_same fun t ht => ?_
    have := hS.last t (by rw [hv]; exact ht)
    have := hclk s.tick
    show env'.clock s.tick ≤ t
    omega
  have reads : ∀ x y, ReadsPart key x y cmd → y < cap → ListsAll ((A.take (y + 1)).drop x) d := by
    rintro x y ⟨n, k, a, b, rfl, hn, rfl, ha, hb⟩ hy
    obtain ⟨db, st, h1, h2, h3, h4, h5⟩ := exec_command (w := b!"lrange") (ka := .first) (by decide +kernel) hn hr
    obtain ⟨r, st', h6, _, _, h7⟩ := runs_iff.1 (C31_lrange c env' ⟨db, s.tick⟩ n k a b x y (hdb db h1) ha hb)
    rw [h2] at h6; cases h6
    rw [hlive db h4, ← h4] at h7
    obtain ⟨w, hw, hpre, htake⟩ := hS.stored
    have e : (w.take (y + 1)).drop x = (A.take (y + 1)).drop x := by rw [take_agree htake (by omega)]
    rw [← e]
    rcases asList_inv hw with ⟨he, rfl⟩ | ⟨ttl, he⟩
    · rw [he] at h7; exact .inr ⟨by simp, h7⟩
    · rw [he] at h7; exact .inl (by rw [← between_front]; exact h7)
  have trim : Cuts key cap cmd → s'.cur = s.cur ∧ Feed H key cap (s'.view s.cur key) A ∧
      (∀ w, asList (s'.view s.cur key) = some w → w.length ≤ cap) ∧
      ∀ w w', asList (s.view s.cur key) = some w → asList (s'.view s.cur key) = some w' → w'.length ≤ w.length := by
    rintro ⟨n, k, a, b, rfl, hn, rfl, ha, hb⟩
    obtain ⟨db, st, h1, h2, h3, h4, h5⟩ := exec_command (w := b!"ltrim") (ka := .first) (by decide +kernel) hn hr
    obtain ⟨r, st', h6, _, h7⟩ := runs_iff.1 (C31_ltrim_partial c env' ⟨db, s.tick⟩ n k a b 0 (cap - 1) (hdb db h1) ha hb
      (by rw [hlive db h4, ← h4]; exact hS.filled))
    rw [h2] at h6; cases h6
    rw [hlive db h4, ← h4] at h7
    obtain ⟨w, hw, hpre, htake⟩ := hS.stored
    refine ⟨h3, ?_⟩
    rcases asList_inv hw with ⟨he, rfl⟩ | ⟨ttl, he⟩
    · rw [he] at h7
      have e : s'.view s.cur (str k) = none := by rw [h5, h7.2, he]
      rw [e]
      exact ⟨⟨⟨[], rfl, hpre, htake⟩, by simp, by intro t ht; cases ht⟩, by intro w hw; cases hw; exact Nat.zero_le _,
        by intro w w' _ hw'; cases hw'; exact Nat.zero_le _⟩
    · rw [he] at h7
      have e1 : between w 0 ((cap : Int) - 1) = w.take cap := by
        have := between_front w 0 (cap - 1)
        rw [List.drop_zero] at this
        have e2 : ((cap - 1 : Nat) : Int) = (cap : Int) - 1 := by omega
        have e3 : cap - 1 + 1 = cap := by omega
        rw [e2, e3] at this
        exact this
      have hne : w ≠ [] := fun e => hS.filled ttl (by rw [he, e])
      have hne' : w.take cap ≠ [] := by
        intro e
        rcases List.take_eq_nil_iff.1 e with e | e
        · omega
        · exact hne e
      have e : s'.view s.cur (str k) = some ⟨.list (w.take cap), ttl⟩ := by
        rw [h5, h7.2, e1, Store.putList, if_neg hne', Store.put_self]
      rw [e]
      refine ⟨⟨⟨w.take cap, rfl, (List.take_prefix _ _).trans hpre, ?_⟩, ?_, ?_⟩, ?_, ?_⟩
      · rw [List.take_take, Nat.min_self]; exact htake
      · intro ttl' he'
        simp only [Option.some.injEq, Spec.Entry.mk.injEq, AVal.list.injEq] at he'
        exact hne' he'.1
      · intro t ht; exact hS.last t (by rw [he]; exact ht)
      · intro v hv; cases hv; exact List.length_take_le _ _
      · intro v v' hv hv'
        rw [he] at hv
        cases hv; cases hv'
        rw [List.length_take]; exact Nat.min_le_right _ _
  cases hq with
  | @push n k e es hn hk =>
    subst hk
    obtain ⟨db, st, h1, h2, h3, h4, h5⟩ := exec_command (w := b!"lpush") (ka := .first) (by decide +kernel) hn hr
    obtain ⟨r, st', h6, _, h7⟩ := runs_iff.1 (C30_lpush c env' ⟨db, s.tick⟩ n k (e :: es) (by simp) (hdb db h1))
    rw [h2] at h6; cases h6
    rw [hlive db h4, ← h4] at h7
    obtain ⟨w, hw, hpre, htake⟩ := hS.stored
    rw [hw] at h7
    have hp : posts (str k) (n :: k :: e :: es) = (e :: es).reverse := by simp [posts, hn]
    rw [hp]
    have ev : s'.view s.cur (str k) = some ⟨.list ((e :: es).reverse ++ w), ttlOf (s.view s.cur (str k))⟩ := by rw [h5, h7.2, Store.put_self]
    refine ⟨h3, ⟨⟨(e :: es).reverse ++ w, by rw [ev]; rfl, (List.prefix_append_right_inj _).2 hpre, take_append_agree _ htake⟩, ?_, ?_⟩, fun h => (trim h).2.2.1, fun h0 => by simp at h0, reads⟩
    · intro ttl he
      rw [ev] at he
      simp at he
    · intro t ht
      rw [ev] at ht
      exact hS.last t ht
  | cut hc =>
    obtain ⟨h1, h2, h3⟩ := trim hc
    rw [cuts_posts hc]
    exact ⟨h1, h2, fun _ => h3.1, fun _ => h3.2, reads⟩
  | bystander hb =>
    obtain ⟨h1, h2⟩ := bystander_step hI hclk hS.last hb hr
    rw [bystander_posts hb]
    exact ⟨h1, by rw [h2]; exact hS, fun h => (trim h).2.2.1, fun _ w w' hw hw' => by rw [h2, hw] at hw'; cases hw'; exact Nat.le_refl _, reads⟩

/-- Commands executed one after the other. -/
theorem timeline_run {s s' : Srv} {A : List Slice} {l : List Entry} (hI : s.Inv) (hcap : 0 < cap) (hclk : ∀ i, env.clock i ≤ H)
    (hS : Feed H key cap (s.view s.cur key) A) (hq : ∀ x ∈ l, Posting key cap x.2.1) (h : InTurn c env s l s') :
    s'.Inv ∧ s'.cur = s.cur ∧ Feed H key cap (s'.view s.cur key) (posted key (l.map (·.2.1)) ++ A) ∧
      (∀ l1 x l2, l = l1 ++ x :: l2 → Cuts key cap x.2.1 → (∀ z ∈ l2, posts key z.2.1 = []) → ∀ w, asList (s'.view s.cur key) = some w → w.length ≤ cap) ∧
      ∀ l1 x l2, l = l1 ++ x :: l2 → ∀ a b, ReadsPart key a b x.2.1 → b < cap →
        ListsAll (((posted key (l1.map (·.2.1)) ++ A).take (b + 1)).drop a) x.2.2 := by
  induction h with
  | refl => exact ⟨hI, rfl, by simpa [posted] using hS, fun l1 x l2 h => by simp at h, fun l1 x l2 h => by simp at h⟩
  | @step l s1 s2 i cmd d env' _ hfrom hr ih =>
    obtain ⟨hI1, hc1, hS1, hk1, h1⟩ := ih fun x hx => hq x (List.mem_append_left _ hx)
    rw [← hc1] at hS1
    have hclk' : ∀ i, env'.clock i ≤ H := fun i => by obtain ⟨j, hj⟩ := hfrom.clock i; rw [hj]; exact hclk j
    obtain ⟨hc2, hS2, hk2, hs2, h2⟩ := timeline_step hI1 hcap hclk' hS1 (hq (i, cmd, d) (by simp)) hr
    rw [hc1] at hS2 hk2 hs2
    refine ⟨exec_inv hI1 hr, hc2.trans hc1, ?_, ?_, fun l1 x l2 he => ?_⟩
    · simp only [List.map_append, List.map_cons, List.map_nil, posted_append]
      rw [List.append_assoc]
      simpa [posted] using hS2
    · intro l1 x l2 he hcut hnone w hw
      rcases List.eq_nil_or_concat l2 with rfl | ⟨l2', y, rfl⟩
      · obtain ⟨rfl, hx⟩ := List.append_inj' he rfl
        cases hx
        exact hk2 hcut w hw
      · rw [List.concat_eq_append, ← List.cons_append, ← List.append_assoc] at he
        obtain ⟨rfl, hy⟩ := List.append_inj' he rfl
        cases hy
        obtain ⟨v, hv, -⟩ := hS1.stored
        rw [hc1] at hv
        have := hk1 _ _ _ rfl hcut (fun z hz => hnone z (by simp [hz])) v hv
        have := hs2 (hnone _ (by simp)) v w hv hw
        omega
    · rcases List.eq_nil_or_concat l2 with rfl | ⟨l2', y, rfl⟩
      · obtain ⟨rfl, hx⟩ := List.append_inj' he rfl
        cases hx
        exact h2
      · rw [List.concat_eq_append, ← List.cons_append, ← List.append_assoc] at he
        obtain ⟨rfl, -⟩ := List.append_inj' he rfl
        exact h1 _ _ _ rfl

theorem posting_tame {cmd : List Slice} (h : Posting key cap cmd) (hb : Bystander key cmd → Tame c env H cmd) : Tame c env H cmd := by
  cases h with
  | push hn _ =>
    have := (toLower_folds (w := b!"lpush") (by decide)).2 hn
    exact tame_of ⟨by rw [this]; decide, by rw [this]; simp⟩ (by rw [this]; decide)
  | cut h =>
    obtain ⟨n, k, a, b, rfl, hn, -⟩ := h
    have := (toLower_folds (w := b!"ltrim") (by decide)).2 hn
    exact tame_of ⟨by rw [this]; decide, by rw [this]; simp⟩ (by rw [this]; decide)
  | bystander h => exact hb h

theorem feed_start {s : Srv} {T : List Slice} (hlast : ∀ db ∈ s.dbs, ∀ k t, db.exp.get k = some t → H ≤ t)
    (hL : asList (s.view s.cur key) = some T) (hne : ∀ ttl, s.view s.cur key ≠ some ⟨.list [], ttl⟩) : Feed H key cap (s.view s.cur key) T :=
  ⟨⟨T, hL, List.prefix_rfl, rfl⟩, hne, fun _ ht => view_lasts hlast ht⟩

/-- **C107.**  Connections push at the front of a list, cut it to its first `cap` elements and read it, however their goroutines
interleave.  There is an order of all commands that explains what the connections see; a reader of positions below `cap` is answered as
if nothing had ever been cut off, with the newest entries at its place in the order; and the list holds the newest `cap` entries at least. -/
theorem C107_timeline {s : Srv} {n : Nat} {es : List Ev} {g : Hub} {T : List Slice} (hI : s.Inv) (hcap : 0 < cap) (hclk : ∀ i, env.clock i ≤ H)
    (hcur : s.cur < s.dbs.length) (hlast : ∀ db ∈ s.dbs, ∀ k t, db.exp.get k = some t → H ≤ t) (hL : asList (s.view s.cur key) = some T)
    (hne : ∀ ttl, s.view s.cur key ≠ some ⟨.list [], ttl⟩)
    (hq : ∀ i cmd, .call i cmd ∈ es → Posting key cap cmd ∧ (Bystander key cmd → Tame c env H cmd))
    (h : HubRun c env (Hub.start s n) es g) :
    ∃ l, Explains l es ∧
      (∀ l1 x l2, l = l1 ++ x :: l2 → ∀ a b, ReadsPart key a b x.2.1 → b < cap →
        ListsAll (((posted key (l1.map (·.2.1)) ++ T).take (b + 1)).drop a) x.2.2) ∧
      ((∀ x ∈ g.calls, ∀ d p, x ≠ .running d p) → ∃ w, asList (g.holds key) = some w ∧ w <+: posted key (l.map (·.2.1)) ++ T ∧
        w.take cap = (posted key (l.map (·.2.1)) ++ T).take cap) := by
  obtain ⟨l, s', h1, h2, _, h4⟩ := C69_linearizable_partial hclk hcur hlast (fun i cmd hc => posting_tame (hq i cmd hc).1 (hq i cmd hc).2) h
  obtain ⟨_, h5, h6, _, h7⟩ := timeline_run hI hcap hclk (feed_start hlast hL hne) (fun x hx => (hq x.1 x.2.1 (explains_called h2 hx)).1) h1
  refine ⟨l, h2, h7, fun hr => ?_⟩
  rw [holds_eq key (h4 hr), h5]; exact h6.stored

/-- **C107.**  What has been acknowledged is seen: an LRANGE called after the answer to an LPUSH is answered from a timeline with those
entries in it, behind newer ones only. -/
theorem C107_visible {s : Srv} {n : Nat} {es1 es2 : List Ev} {g : Hub} {T : List Slice} (hI : s.Inv) (hcap : 0 < cap) (hclk : ∀ i, env.clock i ≤ H)
    (hcur : s.cur < s.dbs.length) (hlast : ∀ db ∈ s.dbs, ∀ k t, db.exp.get k = some t → H ≤ t) (hL : asList (s.view s.cur key) = some T)
    (hne : ∀ ttl, s.view s.cur key ≠ some ⟨.list [], ttl⟩)
    (hq : ∀ i cmd, .call i cmd ∈ es1 ++ es2 → Posting key cap cmd ∧ (Bystander key cmd → Tame c env H cmd))
    (h : HubRun c env (Hub.start s n) (es1 ++ es2) g)
    {i : Nat} {nm k : Slice} {as : List Slice} {d : Data} (hx : (nm :: k :: as, d) ∈ exchanges i es1) (hn : Folds (str nm) b!"lpush") (hk : str k = key)
    {j m x y : Nat} {cmd : List Slice} {d' : Data} (hy : (exchanges j (es1 ++ es2))[m]? = some (cmd, d')) (hm : (callsOf j es1).length ≤ m)
    (hr : ReadsPart key x y cmd) (hlt : y < cap) :
    ∃ newer older, ListsAll (((newer ++ as.reverse ++ older).take (y + 1)).drop x) d' ∧
      ∀ e ∈ newer, ∃ i' cmd', .call i' cmd' ∈ es1 ++ es2 ∧ e ∈ posts key cmd' := by
  obtain ⟨l, h1, h2, -⟩ := C107_timeline hI hcap hclk hcur hlast hL hne hq h
  obtain ⟨l1, l2, rfl, h3⟩ := h1.2 es1 es2 rfl
  have hx' : (nm :: k :: as, d) ∈ doneBy i l1 := (zip_prefix (h3 i).1 (h3 i).2).subset hx
  obtain ⟨a1, a2, rfl⟩ := List.append_of_mem (doneBy_mem.1 hx')
  have hy' : (cmd, d') ∈ doneBy j l2 := by
    have e1 := (exchanges_prefix h1 j)
    obtain ⟨z, hz⟩ := e1
    have e2 : (doneBy j (a1 ++ (i, nm :: k :: as, d) :: a2 ++ l2))[m]? = some (cmd, d') := by
      rw [← hz, List.getElem?_append_left (List.getElem?_eq_some_iff.1 hy).1]; exact hy
    rw [doneBy_append] at e2
    have hlen : (doneBy j (a1 ++ (i, nm :: k :: as, d) :: a2)).length ≤ m := by
      have := (h3 j).1.length_le
      rw [List.length_map] at this
      omega
    rw [List.getElem?_append_right hlen] at e2
    exact List.mem_of_getElem? e2
  obtain ⟨b1, b2, rfl⟩ := List.append_of_mem (doneBy_mem.1 hy')
  have t2 := h2 (a1 ++ (i, nm :: k :: as, d) :: a2 ++ b1) (j, cmd, d') b2 (by simp) x y hr hlt
  have hp : posts key (nm :: k :: as) = as.reverse := by simp [posts, hn, hk]
  have e : posted key ((a1 ++ (i, nm :: k :: as, d) :: a2 ++ b1).map (·.2.1)) ++ T =
      posted key ((a2 ++ b1).map (·.2.1)) ++ as.reverse ++ (posted key (a1.map (·.2.1)) ++ T) := by
    simp [posted_append, posted, hp]
  rw [e] at t2
  refine ⟨_, _, t2, fun e he => ?_⟩
  obtain ⟨cmd', hc', he'⟩ := posted_mem he
  obtain ⟨z, hz, rfl⟩ := List.mem_map.1 hc'
  refine ⟨z.1, z.2.1, explains_called (d := z.2.2) h1 ?_, he'⟩
  simp only [List.mem_append, List.mem_cons] at hz ⊢
  rcases hz with hz | hz <;> simp [hz]

/-- **C107.**  When all is quiet and every connection has cut the list after its last LPUSH (and there was one, or the list was not longer than
`cap` at the start), the list holds the newest `cap` entries and
nothing else. -/
theorem C107_capped {s : Srv} {n : Nat} {es : List Ev} {g : Hub} {T : List Slice} (hI : s.Inv) (hcap : 0 < cap) (hclk : ∀ i, env.clock i ≤ H)
    (hcur : s.cur < s.dbs.length) (hlast : ∀ db ∈ s.dbs, ∀ k t, db.exp.get k = some t → H ≤ t) (hL : asList (s.view s.cur key) = some T)
    (hne : ∀ ttl, s.view s.cur key ≠ some ⟨.list [], ttl⟩)
    (hT : T.length ≤ cap ∨ ∃ i cmd, .call i cmd ∈ es ∧ posts key cmd ≠ [])
    (hq : ∀ i cmd, .call i cmd ∈ es → Posting key cap cmd ∧ (Bystander key cmd → Tame c env H cmd))
    (hcut : ∀ i A cmd B, callsOf i es = A ++ cmd :: B → posts key cmd ≠ [] → ∃ cmd' ∈ B, Cuts key cap cmd')
    (h : HubRun c env (Hub.start s n) es g) (hidle : ∀ x ∈ g.calls, x = .idle) :
    ∃ order : List (Nat × List Slice), (∀ i < n, order.filterMap (fun x => if x.1 = i then some x.2 else none) = callsOf i es) ∧
      (∀ x ∈ order, x.1 < n) ∧ asList (g.holds key) = some ((posted key (order.map (·.2)) ++ T).take cap) := by
  obtain ⟨l, s', h1, h2, h3, h4⟩ := C69_linearizable_partial hclk hcur hlast (fun i cmd hc => posting_tame (hq i cmd hc).1 (hq i cmd hc).2) h
  obtain ⟨_, h5, h6, h7, _⟩ := timeline_run hI hcap hclk (feed_start hlast hL hne) (fun x hx => (hq x.1 x.2.1 (explains_called h2 hx)).1) h1
  have hall : ∀ i < n, (doneBy i l).map (·.1) = callsOf i es := by
    intro i hi
    have hlt : i < g.calls.length := by rw [(hub_callers h).1]; exact hi
    exact (h3 i (by rw [List.getElem?_eq_getElem hlt, hidle _ (List.getElem_mem hlt)])).1.symm
  have hmem : ∀ x ∈ l, x.1 < n := fun x hx => (hub_callers h).2 _ _ (explains_called h2 hx)
  refine ⟨l.map fun x => (x.1, x.2.1), fun i hi => ?_, fun x hx => ?_, ?_⟩
  · rw [← hall i hi]
    simp only [doneBy, List.filterMap_map, List.map_filterMap]
    congr 1
    funext x
    simp only [Function.comp]
    split <;> rfl
  · obtain ⟨y, hy, rfl⟩ := List.mem_map.1 hx
    exact hmem y hy
  · rw [holds_eq key (h4 (idle_quiet hidle)), h5, List.map_map]
    obtain ⟨w, hw, hpre, htake⟩ := h6.stored
    show asList (s'.view s.cur key) = some ((posted key (l.map (·.2.1)) ++ T).take cap)
    rw [hw, ← htake, List.take_of_length_le]
    by_cases hp : ∃ z ∈ l, posts key z.2.1 ≠ []
    · obtain ⟨l1, x, l2, rfl, hx, hl2⟩ := last_such hp
      have hd := hall x.1 (hmem x (by simp))
      rw [doneBy_append, List.map_append] at hd
      have ex : doneBy x.1 (x :: l2) = x.2 :: doneBy x.1 l2 := by simp [doneBy]
      rw [ex, List.map_cons] at hd
      obtain ⟨cmd', hc', hcc⟩ := hcut x.1 _ _ _ hd.symm hx
      obtain ⟨y, hy, rfl⟩ := List.mem_map.1 hc'
      have hyl := doneBy_mem.1 hy
      obtain ⟨b1, b2, rfl⟩ := List.append_of_mem hyl
      exact h7 (l1 ++ x :: b1) (x.1, y) b2 (by simp) hcc (fun z hz => Classical.not_not.1 (hl2 z (by simp [hz]))) w hw
    · have hz : posted key (l.map (·.2.1)) = [] := by
        rw [List.eq_nil_iff_forall_not_mem]
        intro e he
        obtain ⟨cmd', hc', he'⟩ := posted_mem he
        obtain ⟨z, hz, rfl⟩ := List.mem_map.1 hc'
        exact hp ⟨z, hz, fun e0 => by rw [e0] at he'; cases he'⟩
      rw [hz, List.nil_append] at hpre
      rcases hT with hT | ⟨i, cmd, hc, hne⟩
      · exact Nat.le_trans hpre.length_le hT
      · have hm := callsOf_mem.2 hc
        rw [← hall i ((hub_callers h).2 _ _ hc)] at hm
        obtain ⟨y, hy, rfl⟩ := List.mem_map.1 hm
        exact absurd ⟨(i, y), doneBy_mem.1 hy, hne⟩ hp

end
namespace Witness

/-- A server whose one database holds the list `wall`. -/
def wall : Srv := ⟨[dbOf [(b!"wall", .list [some b!"p"], none)]], 0, 0⟩

/-- The cut to two elements. -/
def wallCut : List Slice := [some b!"LTRIM", some b!"wall", some b!"0", some b!"1"]

/-- Connection 0 is about to push when connection 1 pushes; both cut the list; connection 0 reads. -/
def wallActs : List Act :=
  [.call 0 [some b!"LPUSH", some b!"wall", some b!"a"], .go 0, .go 0, .call 1 [some b!"lpush", some b!"wall", some b!"b", some b!"c"]] ++
    List.replicate 9 (.go 1) ++ List.replicate 7 (.go 0) ++ [.call 0 wallCut, .call 1 wallCut] ++ List.replicate 9 (.go 0) ++
    List.replicate 9 (.go 1) ++ [.call 0 [some b!"LRANGE", some b!"wall", some b!"0", some b!"1"]] ++ List.replicate 7 (.go 0)

/-- What is seen of it. -/
def wallSeen : List Ev :=
  [.call 0 [some b!"LPUSH", some b!"wall", some b!"a"], .call 1 [some b!"lpush", some b!"wall", some b!"b", some b!"c"], .answer 1 (replyInt 3),
   .answer 0 (replyInt 4), .call 0 wallCut, .call 1 wallCut, .answer 0 replyOK, .answer 1 replyOK,
   .call 0 [some b!"LRANGE", some b!"wall", some b!"0", some b!"1"], .answer 0 (replyBulks [some b!"a", some b!"c"])]

theorem wall_inv : wall.Inv := by
  intro db hdb
  simp only [wall, List.mem_cons, List.not_mem_nil, or_false] at hdb
  subst hdb
  exact dbOf_inv _ (by decide)

theorem wall_lasts : ∀ db ∈ wall.dbs, ∀ k t, db.exp.get k = some t → 100 ≤ t := by
  intro db hdb k t ht
  simp only [wall, List.mem_cons, List.not_mem_nil, or_false] at hdb
  subst hdb
  simp [dbOf, CMap.get_new] at ht

theorem wall_filled : ∀ ttl, wall.view wall.cur b!"wall" ≠ some ⟨.list [], ttl⟩ := by
  intro ttl h
  have e : asList (wall.view wall.cur b!"wall") = some [some b!"p"] := by rfl
  rw [h] at e
  cases e

theorem wall_cuts : Cuts b!"wall" 2 wallCut :=
  ⟨_, _, _, _, rfl, by decide +kernel, rfl, (atoi_iff _ _).1 (by decide +kernel), (atoi_iff _ _).1 (by decide +kernel)⟩

theorem wall_posting : ∀ i cmd, .call i cmd ∈ wallSeen → Posting b!"wall" 2 cmd ∧ (Bystander b!"wall" cmd → Tame cfg env 100 cmd) := by
  intro i cmd hc
  simp only [wallSeen, List.mem_cons, Ev.call.injEq, List.not_mem_nil, or_false, reduceCtorEq, false_or] at hc
  rcases hc with ⟨_, rfl⟩ | ⟨_, rfl⟩ | ⟨_, rfl⟩ | ⟨_, rfl⟩ | ⟨_, rfl⟩
  · exact ⟨.push (by decide +kernel) rfl, fun _ => tame_of ⟨by decide, by decide⟩ (by decide)⟩
  · exact ⟨.push (by decide +kernel) rfl, fun _ => tame_of ⟨by decide, by decide⟩ (by decide)⟩
  · exact ⟨.cut wall_cuts, fun _ => tame_of ⟨by decide, by decide⟩ (by decide)⟩
  · exact ⟨.cut wall_cuts, fun _ => tame_of ⟨by decide, by decide⟩ (by decide)⟩
  · exact ⟨.bystander (.reads (w := b!"lrange") (by decide +kernel) ((toLower_folds (by decide)).1 (by decide +kernel))), fun _ => tame_of ⟨by decide, by decide⟩ (by decide)⟩

theorem wall_seen : ((Hub.start wall 2).acts cfg env wallActs).map (fun x => (x.1, x.2.calls.all fun x => x matches .idle)) =
    some (wallSeen, true) := by decide +kernel

theorem wall_reads : ReadsPart b!"wall" 0 1 [some b!"LRANGE", some b!"wall", some b!"0", some b!"1"] :=
  ⟨_, _, _, _, rfl, (toLower_folds (by decide)).1 (by decide +kernel), rfl, (atoi_iff _ _).1 (by decide +kernel), (atoi_iff _ _).1 (by decide +kernel)⟩

end Witness

/-- Example: of the four entries the two newest are left. -/
example : ∃ (g : Hub), ((Hub.start Witness.wall 2).acts Witness.cfg Witness.env Witness.wallActs) = some (Witness.wallSeen, g) ∧
    ∃ w, asList (g.holds b!"wall") = some w ∧ w.length = 2 := by
  obtain ⟨⟨es, g⟩, h, he⟩ := Option.map_eq_some_iff.1 Witness.wall_seen
  simp only [Prod.mk.injEq, List.all_eq_true] at he
  obtain ⟨rfl, hidle⟩ := he
  obtain ⟨order, h1, h2, h3⟩ := C107_capped (H := 100) (key := b!"wall") (cap := 2) (T := [some b!"p"]) Witness.wall_inv (by decide)
    (fun _ => Int.le_refl _) (by decide) Witness.wall_lasts (by rfl) Witness.wall_filled (.inl (by decide)) Witness.wall_posting (by
      intro i A cmd B hc hp
      have c0 : callsOf 0 Witness.wallSeen = [[some b!"LPUSH", some b!"wall", some b!"a"], Witness.wallCut, [some b!"LRANGE", some b!"wall", some b!"0", some b!"1"]] := by
        decide +kernel
      have c1 : callsOf 1 Witness.wallSeen = [[some b!"lpush", some b!"wall", some b!"b", some b!"c"], Witness.wallCut] := by decide +kernel
      have p1 : posts b!"wall" Witness.wallCut = [] := by decide +kernel
      have p2 : posts b!"wall" [some b!"LRANGE", some b!"wall", some b!"0", some b!"1"] = [] := by decide +kernel
      match i, hc with
      | 0, hc =>
        rw [c0] at hc
        match A, hc with
        | [], hc =>
          simp only [List.nil_append, List.cons.injEq] at hc
          exact ⟨Witness.wallCut, by rw [← hc.2]; simp, Witness.wall_cuts⟩
        | [_], hc => simp at hc; exact (hp (by rw [← hc.2.1]; exact p1)).elim
        | [_, _], hc => simp at hc; exact (hp (by rw [← hc.2.2.1]; exact p2)).elim
        | _ :: _ :: _ :: _, hc => simp at hc
      | 1, hc =>
        rw [c1] at hc
        match A, hc with
        | [], hc =>
          simp only [List.nil_append, List.cons.injEq] at hc
          exact ⟨Witness.wallCut, by rw [← hc.2]; simp, Witness.wall_cuts⟩
        | [_], hc => simp at hc; exact (hp (by rw [← hc.2.1]; exact p1)).elim
        | _ :: _ :: _, hc => simp at hc
      | i + 2, hc =>
        have : callsOf (i + 2) Witness.wallSeen = [] := by simp [callsOf, Witness.wallSeen]
        rw [this] at hc
        simp at hc) (hub_acts h) (fun x hx => by
      have := hidle x hx
      cases x <;> first | rfl | cases this)
  refine ⟨g, h, _, h3, ?_⟩
  have e0 := h1 0 (by decide)
  have c0 : callsOf 0 Witness.wallSeen = [[some b!"LPUSH", some b!"wall", some b!"a"], Witness.wallCut, [some b!"LRANGE", some b!"wall", some b!"0", some b!"1"]] := by
    decide +kernel
  rw [c0] at e0
  have hm : some b!"a" ∈ posted b!"wall" (order.map (·.2)) := by
    have hm : ([some b!"LPUSH", some b!"wall", some b!"a"] : List Slice) ∈ order.filterMap (fun x => if x.1 = 0 then some x.2 else none) := by
      rw [e0]; simp
    obtain ⟨x, hx, hx2⟩ := List.mem_filterMap.1 hm
    split at hx2
    · have e := Option.some.inj hx2
      exact mem_posted (List.mem_map_of_mem hx) (by rw [e]; decide +kernel)
    · cases hx2
  have := List.length_pos_of_mem hm
  simp only [List.length_take, List.length_append, List.length_cons, List.length_nil]
  omega

/-- Example: connection 0 reads after it has been told that its entry is posted. -/
example : ∃ (g : Hub), ((Hub.start Witness.wall 2).acts Witness.cfg Witness.env Witness.wallActs) = some (Witness.wallSeen, g) ∧
    ∃ newer older : List Slice, ListsAll (((newer ++ [some b!"a"] ++ older).take 2).drop 0) (replyBulks [some b!"a", some b!"c"]) := by
  obtain ⟨⟨es, g⟩, h, he⟩ := Option.map_eq_some_iff.1 Witness.wall_seen
  simp only [Prod.mk.injEq] at he
  obtain ⟨rfl, -⟩ := he
  obtain ⟨newer, older, hd, -⟩ := C107_visible (H := 100) (key := b!"wall") (cap := 2) (T := [some b!"p"]) (es1 := Witness.wallSeen.take 4) (es2 := Witness.wallSeen.drop 4)
    Witness.wall_inv (by decide) (fun _ => Int.le_refl _) (by decide) Witness.wall_lasts (by rfl) Witness.wall_filled
    (by rw [List.take_append_drop]; exact Witness.wall_posting) (by rw [List.take_append_drop]; exact hub_acts h)
    (i := 0) (nm := some b!"LPUSH") (k := some b!"wall") (as := [some b!"a"]) (d := replyInt 4) (by decide +kernel) (by decide +kernel) rfl
    (j := 0) (m := 2) (d' := replyBulks [some b!"a", some b!"c"]) (by decide +kernel) (by decide +kernel) Witness.wall_reads (by decide)
  exact ⟨g, h, newer, older, hd⟩

/-- Example: what is there at the end is the front of all that was posted. -/
example : ∃ (g : Hub), ((Hub.start Witness.wall 2).acts Witness.cfg Witness.env Witness.wallActs) = some (Witness.wallSeen, g) ∧
    ∃ l, Explains l Witness.wallSeen ∧ ∃ w, asList (g.holds b!"wall") = some w ∧ w <+: posted b!"wall" (l.map (·.2.1)) ++ [some b!"p"] := by
  obtain ⟨⟨es, g⟩, h, he⟩ := Option.map_eq_some_iff.1 Witness.wall_seen
  simp only [Prod.mk.injEq, List.all_eq_true] at he
  obtain ⟨rfl, hidle⟩ := he
  obtain ⟨l, h1, -, h2⟩ := C107_timeline (H := 100) (key := b!"wall") (cap := 2) (T := [some b!"p"]) Witness.wall_inv (by decide)
    (fun _ => Int.le_refl _) (by decide) Witness.wall_lasts (by rfl) Witness.wall_filled Witness.wall_posting (hub_acts h)
  obtain ⟨w, h3, h4, -⟩ := h2 (fun x hx d p e => by have := hidle x hx; rw [e] at this; cases this)
  exact ⟨g, h, l, h1, w, h3, h4⟩

end GRedis
