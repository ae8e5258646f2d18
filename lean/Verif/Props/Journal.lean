import Verif.Props.Queue
/-
C98: a string under concurrent APPENDs is a log: every piece is in it once, whole, in order, and its writer is told where.
-/
namespace GRedis
open Prog Spec

namespace Spec

instance decFoldsAppend (b : Bytes) : Decidable (Folds b b!"append") := decidable_of_iff _ (toLower_folds (by decide))
instance decFoldsGet (b : Bytes) : Decidable (Folds b b!"get") := decidable_of_iff _ (toLower_folds (by decide))

/-- The bytes of a string; none if there is no such key, no answer if it is of another type. -/
def asText : Option Entry → Option Bytes
  | none => some []
  | some ⟨.str b, _⟩ => some (b.getD [])
  | some _ => none

/-- The bytes a command appends to the string at `key`. -/
def piece (key : Bytes) : List Slice → Bytes
  | [n, k, a] => if Folds (str n) b!"append" ∧ str k = key then str a else []
  | _ => []

/-- The bytes that some commands append, one after the other. -/
def pieces (key : Bytes) (l : List (List Slice)) : Bytes := l.flatMap (piece key)

/-- The commands of the users of a log at `key`: APPEND, and commands that leave the key as it is, among them those that read it. -/
inductive Logging (key : Bytes) : List Slice → Prop
  | append {n k a : Slice} : Folds (str n) b!"append" → str k = key → Logging key [n, k, a]
  | bystander {cmd : List Slice} : Bystander key cmd → Logging key cmd

/-- What a user of the log is told when the log is `T`. -/
structure Told (key T : Bytes) (cmd : List Slice) (d : Data) : Prop where
  append : ∀ n k a, cmd = [n, k, a] → Folds (str n) b!"append" → str k = key → d = replyInt (T ++ str a).length
  get : ∀ n k, cmd = [n, k] → Folds (str n) b!"get" → str k = key → d = replyBulk (some T) ∨ T = [] ∧ d = replyNil
  strlen : ∀ n k, cmd = [n, k] → Folds (str n) b!"strlen" → str k = key → d = replyInt T.length

end Spec

section
variable {c : Cfg} {env : Env} {H : Int}

theorem bystander_piece {key : Bytes} {cmd : List Slice} (h : Bystander key cmd) : piece key cmd = [] := by
  unfold piece
  split
  · refine if_neg ?_
    rintro ⟨hn, hk⟩
    exact bystander_not h (by decide +kernel) (by decide +kernel) hn hk
  · rfl

theorem asText_inv {e : Option Spec.Entry} {T : Bytes} (h : asText e = some T) : (e = none ∧ T = []) ∨ ∃ b ttl, e = some ⟨.str b, ttl⟩ ∧ T = b.getD [] := by
  unfold asText at h
  split at h
  · cases h; exact .inl ⟨rfl, rfl⟩
  · cases h; exact .inr ⟨_, _, rfl, rfl⟩
  · cases h

/-- What a command of a user of the log does to it, and what it answers. -/
theorem log_step {env' : Env} {s s' : Srv} {cmd : List Slice} {key : Bytes} {d : Data} {T : Bytes} (hI : s.Inv)
    (hclk : ∀ i, env'.clock i ≤ H) (hL : asText (s.view s.cur key) = some T) (hT : ∀ t, ttlOf (s.view s.cur key) = some t → H ≤ t)
    (hq : Logging key cmd) (hr : execCommand c env' s cmd = .ok (d, s')) :
    s'.cur = s.cur ∧ asText (s'.view s.cur key) = some (T ++ piece key cmd) ∧ (∀ t, ttlOf (s'.view s.cur key) = some t → H ≤ t) ∧
      Told key T cmd d := by
  have hdb : ∀ db, s.dbs[s.cur]? = some db → db.Inv := fun db h => hI db (List.mem_of_getElem? h)
  have hlive : ∀ db, s.view s.cur = db.view → live env' ⟨db, s.tick⟩ key = db.view := by
    intro db hv
    refine reap_same fun t ht => ?_
    have := hT t (by rw [hv]; exact ht)
    have := hclk s.tick
    show env'.clock s.tick ≤ t
    omega
  have told : Told key T cmd d := by
    refine ⟨?_, ?_, ?_⟩
    · rintro n k a rfl hn rfl
      obtain ⟨db, st, h1, h2, h3, h4, h5⟩ := exec_command (w := b!"append") (ka := .first) (by decide +kernel) hn hr
      obtain ⟨r, st', h6, _, h7⟩ := runs_iff.1 (C15_append c env' ⟨db, s.tick⟩ n k a (hdb db h1))
      rw [h2] at h6; cases h6
      rw [hlive db h4, ← h4] at h7
      rcases asText_inv hL with ⟨he, rfl⟩ | ⟨b, ttl, he, rfl⟩
      · rw [he] at h7; exact h7.1
      · rw [he] at h7; exact h7.1
    · rintro n k rfl hn rfl
      obtain ⟨db, st, h1, h2, h3, h4, h5⟩ := exec_command (w := b!"get") (ka := .first) (by decide +kernel) hn hr
      obtain ⟨r, st', h6, _, h7⟩ := runs_iff.1 (C09_get c env' ⟨db, s.tick⟩ n k (hdb db h1))
      rw [h2] at h6; cases h6
      rw [hlive db h4, ← h4] at h7
      rcases asText_inv hL with ⟨he, rfl⟩ | ⟨b, ttl, he, rfl⟩
      · rw [he] at h7; exact .inr ⟨rfl, h7.2⟩
      · rw [he] at h7
        cases b with
        | none => exact .inr ⟨rfl, h7.2⟩
        | some b => exact .inl h7.2
    · rintro n k rfl hn rfl
      obtain ⟨db, st, h1, h2, h3, h4, h5⟩ := exec_command (w := b!"strlen") (ka := .first) (by decide +kernel) hn hr
      obtain ⟨r, st', h6, _, h7⟩ := runs_iff.1 (C15_strlen c env' ⟨db, s.tick⟩ n k (hdb db h1))
      rw [h2] at h6; cases h6
      rw [hlive db h4, ← h4] at h7
      rcases asText_inv hL with ⟨he, rfl⟩ | ⟨b, ttl, he, rfl⟩
      · rw [he] at h7; exact h7.2
      · rw [he] at h7; exact h7.2
  cases hq with
  | @append n k a hn hk =>
    subst hk
    obtain ⟨db, st, h1, h2, h3, h4, h5⟩ := exec_command (w := b!"append") (ka := .first) (by decide +kernel) hn hr
    obtain ⟨r, st', h6, _, h7⟩ := runs_iff.1 (C15_append c env' ⟨db, s.tick⟩ n k a (hdb db h1))
    rw [h2] at h6; cases h6
    rw [hlive db h4, ← h4] at h7
    have hp : piece (str k) [n, k, a] = str a := by simp [piece, hn]
    rw [hp]
    rcases asText_inv hL with ⟨he, rfl⟩ | ⟨b, ttl, he, rfl⟩
    · rw [he] at h7
      refine ⟨h3, ?_, ?_, told⟩
      · rw [h5, h7.2, Store.put_self]; rfl
      · rw [h5, h7.2, Store.put_self]; intro t ht; cases ht
    · rw [he] at h7
      obtain ⟨_, w, hw, _, h7⟩ := h7
      refine ⟨h3, ?_, ?_, told⟩
      · rw [h5, h7, Store.put_self]; exact congrArg some hw
      · rw [h5, h7, Store.put_self]; intro t ht; exact hT t (by rw [he]; exact ht)
  | bystander hb =>
    obtain ⟨h1, h2⟩ := bystander_step hI hclk hT hb hr
    rw [bystander_piece hb, List.append_nil]
    exact ⟨h1, by rw [h2]; exact hL, by rw [h2]; exact hT, told⟩

/-- Commands executed one after the other. -/
theorem log_run {s s' : Srv} {key T : Bytes} {l : List Entry} (hI : s.Inv) (hclk : ∀ i, env.clock i ≤ H)
    (hL : asText (s.view s.cur key) = some T) (hT : ∀ t, ttlOf (s.view s.cur key) = some t → H ≤ t)
    (hq : ∀ x ∈ l, Logging key x.2.1) (h : InTurn c env s l s') :
    s'.Inv ∧ s'.cur = s.cur ∧ asText (s'.view s.cur key) = some (T ++ pieces key (l.map (·.2.1))) ∧ (∀ t, ttlOf (s'.view s.cur key) = some t → H ≤ t) ∧
      ∀ l1 x l2, l = l1 ++ x :: l2 → Told key (T ++ pieces key (l1.map (·.2.1))) x.2.1 x.2.2 := by
  induction h with
  | refl => exact ⟨hI, rfl, by simpa [pieces] using hL, hT, fun l1 x l2 h => by simp at h⟩
  | @step l s1 s2 i cmd d env' _ hfrom hr ih =>
    obtain ⟨hI1, hc1, hL1, hT1, h1⟩ := ih fun x hx => hq x (List.mem_append_left _ hx)
    rw [← hc1] at hL1 hT1
    have hclk' : ∀ i, env'.clock i ≤ H := fun i => by obtain ⟨j, hj⟩ := hfrom.clock i; rw [hj]; exact hclk j
    obtain ⟨hc2, hL2, hT2, h2⟩ := log_step hI1 hclk' hL1 hT1 (hq (i, cmd, d) (by simp)) hr
    rw [hc1] at hL2 hT2
    refine ⟨exec_inv hI1 hr, hc2.trans hc1, ?_, hT2, fun l1 x l2 he => ?_⟩
    · rw [hL2, List.append_assoc]
      simp [pieces]
    · rcases List.eq_nil_or_concat l2 with rfl | ⟨l2', y, rfl⟩
      · obtain ⟨rfl, hx⟩ := List.append_inj' he rfl
        cases hx
        exact h2
      · rw [List.concat_eq_append, ← List.cons_append, ← List.append_assoc] at he
        obtain ⟨rfl, -⟩ := List.append_inj' he rfl
        exact h1 _ _ _ rfl

theorem logging_tame {key : Bytes} {cmd : List Slice} (h : Logging key cmd) (hb : Bystander key cmd → Tame c env H cmd) : Tame c env H cmd := by
  cases h with
  | append hn _ =>
    have := (toLower_folds (w := b!"append") (by decide)).2 hn
    exact tame_of ⟨by rw [this]; decide, by rw [this]; simp⟩ (by rw [this]; decide)
  | bystander h => exact hb h

/-- **C98.**  Connections append to a string at once, however their goroutines interleave.  There is an order of all commands that
explains what the connections see; the string grows by the pieces appended in this order, and by nothing else; every APPEND is told
the length up to the end of its own piece, every GET and STRLEN what the string was at its place in the order. -/
theorem C98_log {s : Srv} {n : Nat} {es : List Ev} {g : Hub} {key T : Bytes} (hI : s.Inv) (hclk : ∀ i, env.clock i ≤ H)
    (hcur : s.cur < s.dbs.length) (hlast : ∀ db ∈ s.dbs, ∀ k t, db.exp.get k = some t → H ≤ t) (hL : asText (s.view s.cur key) = some T)
    (hq : ∀ i cmd, .call i cmd ∈ es → Logging key cmd ∧ (Bystander key cmd → Tame c env H cmd))
    (h : HubRun c env (Hub.start s n) es g) :
    ∃ l, Explains l es ∧ (∀ l1 x l2, l = l1 ++ x :: l2 → Told key (T ++ pieces key (l1.map (·.2.1))) x.2.1 x.2.2) ∧
      ((∀ x ∈ g.calls, ∀ d p, x ≠ .running d p) → asText (g.holds key) = some (T ++ pieces key (l.map (·.2.1)))) := by
  obtain ⟨l, s', h1, h2, _, h4⟩ := C69_linearizable_partial hclk hcur hlast (fun i cmd hc => logging_tame (hq i cmd hc).1 (hq i cmd hc).2) h
  obtain ⟨_, h5, h6, _, h7⟩ := log_run hI hclk hL (fun t ht => view_lasts hlast ht)
    (fun x hx => (hq x.1 x.2.1 (explains_called h2 hx)).1) h1
  refine ⟨l, h2, h7, fun hr => ?_⟩
  rw [holds_eq key (h4 hr), h5]; exact h6

/-- A place in the order for every exchange; those whose commands were called after `es1` was seen come later than all those answered in `es1`. -/
theorem explains_place {l : List Entry} {es : List Ev} (h : Explains l es) {i : Nat} {x : List Slice × Data} (hx : x ∈ exchanges i es) :
    ∃ l1 l2, l = l1 ++ (i, x) :: l2 := by
  have := doneBy_mem.1 ((exchanges_prefix h i).subset hx)
  exact List.append_of_mem this

/-- **C98.**  Every writer finds its piece: it is in the string whole, and the reply to APPEND is the position of its end. -/
theorem C98_found {s : Srv} {n : Nat} {es : List Ev} {g : Hub} {key T : Bytes} (hI : s.Inv) (hclk : ∀ i, env.clock i ≤ H)
    (hcur : s.cur < s.dbs.length) (hlast : ∀ db ∈ s.dbs, ∀ k t, db.exp.get k = some t → H ≤ t) (hL : asText (s.view s.cur key) = some T)
    (hq : ∀ i cmd, .call i cmd ∈ es → Logging key cmd ∧ (Bystander key cmd → Tame c env H cmd))
    (h : HubRun c env (Hub.start s n) es g) (hquiet : ∀ x ∈ g.calls, ∀ d p, x ≠ .running d p) :
    ∃ v, asText (g.holds key) = some v ∧ T <+: v ∧
      (∀ i nm k a d, ([nm, k, a], d) ∈ exchanges i es → Folds (str nm) b!"append" → str k = key →
        ∃ p q, v = p ++ str a ++ q ∧ T <+: p ∧ d = replyInt (p ++ str a).length) ∧
      (∀ i nm k d, ([nm, k], d) ∈ exchanges i es → Folds (str nm) b!"get" → str k = key → ∃ w, w <+: v ∧ T <+: w ∧
        (d = replyBulk (some w) ∨ w = [] ∧ d = replyNil)) := by
  obtain ⟨l, h1, h2, h3⟩ := C98_log hI hclk hcur hlast hL hq h
  refine ⟨_, h3 hquiet, List.prefix_append _ _, fun i nm k a d hx hn hk => ?_, fun i nm k d hx hn hk => ?_⟩
  · obtain ⟨l1, l2, rfl⟩ := explains_place h1 hx
    refine ⟨T ++ pieces key (l1.map (·.2.1)), pieces key (l2.map (·.2.1)), ?_, List.prefix_append _ _, (h2 _ _ _ rfl).append _ _ _ rfl hn hk⟩
    have hp : piece key [nm, k, a] = str a := by simp [piece, hn, hk]
    simp [pieces, hp]
  · obtain ⟨l1, l2, rfl⟩ := explains_place h1 hx
    refine ⟨T ++ pieces key (l1.map (·.2.1)), ?_, List.prefix_append _ _, (h2 _ _ _ rfl).get _ _ rfl hn hk⟩
    rw [List.map_append, pieces, pieces, List.flatMap_append, ← List.append_assoc]
    exact List.prefix_append _ _

/-- **C98.**  What has been acknowledged is seen: a GET called after the answer to an APPEND returns a string with that piece at its place. -/
theorem C98_visible {s : Srv} {n : Nat} {es1 es2 : List Ev} {g : Hub} {key T : Bytes} (hI : s.Inv) (hclk : ∀ i, env.clock i ≤ H)
    (hcur : s.cur < s.dbs.length) (hlast : ∀ db ∈ s.dbs, ∀ k t, db.exp.get k = some t → H ≤ t) (hL : asText (s.view s.cur key) = some T)
    (hq : ∀ i cmd, .call i cmd ∈ es1 ++ es2 → Logging key cmd ∧ (Bystander key cmd → Tame c env H cmd))
    (h : HubRun c env (Hub.start s n) (es1 ++ es2) g)
    {i : Nat} {nm k a : Slice} {d : Data} (hx : ([nm, k, a], d) ∈ exchanges i es1) (hn : Folds (str nm) b!"append") (hk : str k = key)
    {j m : Nat} {nm' k' : Slice} {d' : Data} (hy : (exchanges j (es1 ++ es2))[m]? = some ([nm', k'], d')) (hm : (callsOf j es1).length ≤ m)
    (hn' : Folds (str nm') b!"get") (hk' : str k' = key) :
    ∃ p q, d = replyInt (p ++ str a).length ∧ (d' = replyBulk (some (p ++ str a ++ q)) ∨ p ++ str a ++ q = [] ∧ d' = replyNil) := by
  obtain ⟨l, h1, h2, -⟩ := C98_log hI hclk hcur hlast hL hq h
  obtain ⟨l1, l2, rfl, h3⟩ := h1.2 es1 es2 rfl
  have hx' : ([nm, k, a], d) ∈ doneBy i l1 := (zip_prefix (h3 i).1 (h3 i).2).subset hx
  obtain ⟨a1, a2, rfl⟩ := List.append_of_mem (doneBy_mem.1 hx')
  have hy' : ([nm', k'], d') ∈ doneBy j l2 := by
    have e1 := (exchanges_prefix h1 j)
    obtain ⟨z, hz⟩ := e1
    have e2 : (doneBy j (a1 ++ (i, [nm, k, a], d) :: a2 ++ l2))[m]? = some ([nm', k'], d') := by
      rw [← hz, List.getElem?_append_left (List.getElem?_eq_some_iff.1 hy).1]; exact hy
    rw [doneBy_append] at e2
    have hlen : (doneBy j (a1 ++ (i, [nm, k, a], d) :: a2)).length ≤ m := by
      have := (h3 j).1.length_le
      rw [List.length_map] at this
      omega
    rw [List.getElem?_append_right hlen] at e2
    exact List.mem_of_getElem? e2
  obtain ⟨b1, b2, rfl⟩ := List.append_of_mem (doneBy_mem.1 hy')
  have t1 := (h2 a1 (i, [nm, k, a], d) (a2 ++ (b1 ++ (j, [nm', k'], d') :: b2)) (by simp)).append _ _ _ rfl hn hk
  have t2 := (h2 (a1 ++ (i, [nm, k, a], d) :: a2 ++ b1) (j, [nm', k'], d') b2 (by simp)).get _ _ rfl hn' hk'
  have hp : piece key [nm, k, a] = str a := by simp [piece, hn, hk]
  have e : T ++ pieces key ((a1 ++ (i, [nm, k, a], d) :: a2 ++ b1).map (·.2.1)) =
      T ++ pieces key (a1.map (·.2.1)) ++ str a ++ pieces key ((a2 ++ b1).map (·.2.1)) := by simp [pieces, hp]
  rw [e] at t2
  exact ⟨_, _, t1, t2⟩

/-- **C98.**  When all is quiet, the string is what was there and then all the pieces, each once. -/
theorem C98_nothing_lost {s : Srv} {n : Nat} {es : List Ev} {g : Hub} {key T : Bytes} (hI : s.Inv) (hclk : ∀ i, env.clock i ≤ H)
    (hcur : s.cur < s.dbs.length) (hlast : ∀ db ∈ s.dbs, ∀ k t, db.exp.get k = some t → H ≤ t) (hL : asText (s.view s.cur key) = some T)
    (hq : ∀ i cmd, .call i cmd ∈ es → Logging key cmd ∧ (Bystander key cmd → Tame c env H cmd))
    (h : HubRun c env (Hub.start s n) es g) (hidle : ∀ x ∈ g.calls, x = .idle) :
    ∃ order : List (Nat × List Slice), (∀ i < n, order.filterMap (fun x => if x.1 = i then some x.2 else none) = callsOf i es) ∧
      (∀ x ∈ order, x.1 < n) ∧ asText (g.holds key) = some (T ++ pieces key (order.map (·.2))) := by
  obtain ⟨l, s', h1, h2, h3, h4⟩ := C69_linearizable_partial hclk hcur hlast (fun i cmd hc => logging_tame (hq i cmd hc).1 (hq i cmd hc).2) h
  obtain ⟨_, h5, h6, _, h7⟩ := log_run hI hclk hL (fun t ht => view_lasts hlast ht)
    (fun x hx => (hq x.1 x.2.1 (explains_called h2 hx)).1) h1
  refine ⟨l.map fun x => (x.1, x.2.1), fun i hi => ?_, fun x hx => ?_, ?_⟩
  · have hlt : i < g.calls.length := by rw [(hub_callers h).1]; exact hi
    rw [(h3 i (by rw [List.getElem?_eq_getElem hlt, hidle _ (List.getElem_mem hlt)])).1]
    simp only [doneBy, List.filterMap_map, List.map_filterMap]
    congr 1
    funext x
    simp only [Function.comp]
    split <;> rfl
  · obtain ⟨y, hy, rfl⟩ := List.mem_map.1 hx
    exact (hub_callers h).2 _ _ (explains_called h2 hy)
  · rw [holds_eq key (h4 (idle_quiet hidle)), h5, List.map_map]; exact h6

end

namespace Witness

/-- A server whose one database holds the string `log`. -/
def diary : Srv := ⟨[dbOf [(b!"log", .str (some b!"x;"), none)]], 0, 0⟩

/-- Connection 0 is about to append when connection 1 appends; then it appends, and connection 1 reads. -/
def diaryActs : List Act :=
  [.call 0 [some b!"APPEND", some b!"log", some b!"ab;"], .go 0, .go 0, .call 1 [some b!"append", some b!"log", some b!"c;"]] ++
    List.replicate 9 (.go 1) ++ List.replicate 7 (.go 0) ++ [.call 1 [some b!"GET", some b!"log"]] ++ List.replicate 7 (.go 1)

/-- What is seen of it. -/
def diarySeen : List Ev :=
  [.call 0 [some b!"APPEND", some b!"log", some b!"ab;"], .call 1 [some b!"append", some b!"log", some b!"c;"], .answer 1 (replyInt 4),
   .answer 0 (replyInt 7), .call 1 [some b!"GET", some b!"log"], .answer 1 (replyBulk (some b!"x;c;ab;"))]

theorem diary_inv : diary.Inv := by
  intro db hdb
  simp only [diary, List.mem_cons, List.not_mem_nil, or_false] at hdb
  subst hdb
  exact dbOf_inv _ (by decide)

theorem diary_lasts : ∀ db ∈ diary.dbs, ∀ k t, db.exp.get k = some t → 100 ≤ t := by
  intro db hdb k t ht
  simp only [diary, List.mem_cons, List.not_mem_nil, or_false] at hdb
  subst hdb
  simp [dbOf, CMap.get_new] at ht

theorem diary_logging : ∀ i cmd, .call i cmd ∈ diarySeen → Logging b!"log" cmd ∧ (Bystander b!"log" cmd → Tame cfg env 100 cmd) := by
  intro i cmd hc
  simp only [diarySeen, List.mem_cons, Ev.call.injEq, List.not_mem_nil, or_false, reduceCtorEq, false_or] at hc
  rcases hc with ⟨_, rfl⟩ | ⟨_, rfl⟩ | ⟨_, rfl⟩
  · exact ⟨.append (by decide +kernel) rfl, fun _ => tame_of ⟨by decide, by decide⟩ (by decide)⟩
  · exact ⟨.append (by decide +kernel) rfl, fun _ => tame_of ⟨by decide, by decide⟩ (by decide)⟩
  · exact ⟨.bystander (.reads (w := b!"get") (by decide +kernel) (by decide +kernel)), fun _ => tame_of ⟨by decide, by decide⟩ (by decide)⟩

theorem diary_seen : ((Hub.start diary 2).acts cfg env diaryActs).map (fun x => (x.1, x.2.calls.all fun x => x matches .idle)) =
    some (diarySeen, true) := by decide +kernel

end Witness

/-- Example: the two pieces are in the string, and in the order the replies tell. -/
example : ∃ (g : Hub), ((Hub.start Witness.diary 2).acts Witness.cfg Witness.env Witness.diaryActs) = some (Witness.diarySeen, g) ∧
    ∃ v, asText (g.holds b!"log") = some v ∧ b!"x;c;ab;" <+: v ∧ (∃ p q, v = p ++ b!"ab;" ++ q ∧ p.length = 4) ∧ ∃ p q, v = p ++ b!"c;" ++ q ∧ p.length = 2 := by
  obtain ⟨⟨es, g⟩, h, he⟩ := Option.map_eq_some_iff.1 Witness.diary_seen
  simp only [Prod.mk.injEq, List.all_eq_true] at he
  obtain ⟨rfl, hidle⟩ := he
  obtain ⟨v, h1, -, h2, h3⟩ := C98_found (H := 100) (key := b!"log") (T := b!"x;") Witness.diary_inv (fun _ => Int.le_refl _) (by decide)
    Witness.diary_lasts (by rfl) Witness.diary_logging (hub_acts h) (fun x hx d p hp => by
      have := hidle x hx
      subst hp
      cases this)
  refine ⟨g, h, v, h1, ?_, ?_, ?_⟩
  · obtain ⟨w, hw, -, hd | hd⟩ := h3 1 (some b!"GET") (some b!"log") (replyBulk (some b!"x;c;ab;")) (by decide +kernel) (by decide +kernel) rfl
    · cases hd; exact hw
    · cases hd.2
  · obtain ⟨p, q, hv, -, hd⟩ := h2 0 (some b!"APPEND") (some b!"log") (some b!"ab;") (replyInt 7) (by decide +kernel) (by decide +kernel) rfl
    refine ⟨p, q, hv, ?_⟩
    simp only [Data.item.injEq, Item.int.injEq, List.length_append, str] at hd
    simp at hd
    omega
  · obtain ⟨p, q, hv, -, hd⟩ := h2 1 (some b!"append") (some b!"log") (some b!"c;") (replyInt 4) (by decide +kernel) (by decide +kernel) rfl
    refine ⟨p, q, hv, ?_⟩
    simp only [Data.item.injEq, Item.int.injEq, List.length_append, str] at hd
    simp at hd
    omega

/-- Example: connection 1 reads after connection 0 has been answered. -/
example : ∃ (g : Hub), ((Hub.start Witness.diary 2).acts Witness.cfg Witness.env Witness.diaryActs) = some (Witness.diarySeen, g) ∧
    ∃ p q, replyBulk (some b!"x;c;ab;") = replyBulk (some (p ++ b!"ab;" ++ q)) := by
  obtain ⟨⟨es, g⟩, h, he⟩ := Option.map_eq_some_iff.1 Witness.diary_seen
  simp only [Prod.mk.injEq] at he
  obtain ⟨rfl, -⟩ := he
  obtain ⟨p, q, -, hd | hd⟩ := C98_visible (H := 100) (key := b!"log") (T := b!"x;") (es1 := Witness.diarySeen.take 4) (es2 := Witness.diarySeen.drop 4)
    Witness.diary_inv (fun _ => Int.le_refl _) (by decide) Witness.diary_lasts (by rfl) (by rw [List.take_append_drop]; exact Witness.diary_logging)
    (by rw [List.take_append_drop]; exact hub_acts h)
    (i := 0) (nm := some b!"APPEND") (k := some b!"log") (a := some b!"ab;") (d := replyInt 7) (by decide +kernel) (by decide +kernel) rfl
    (j := 1) (m := 1) (nm' := some b!"GET") (k' := some b!"log") (d' := replyBulk (some b!"x;c;ab;")) (by decide +kernel) (by decide +kernel)
    (by decide +kernel) rfl
  · exact ⟨g, h, p, q, hd⟩
  · cases hd.2

end GRedis
