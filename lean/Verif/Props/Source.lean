import Verif.Props.PlainCmds
/-
C100: the server makes nothing up.  Whatever the interleaving and whatever the clocks show, what is stored and what clients are told
has been there at the start or has been handed over by somebody, in a place of a command from which the server takes words of that kind.
-/
namespace GRedis
open Spec Prog

/-- The bulk string `b` is in the reply. -/
def Utters (d : Data) (b : Bytes) : Prop := d = .item (.bulk (some b)) ∨ ∃ xs, d = .array (some xs) ∧ .bulk (some b) ∈ xs

/-- The key `k` with the value `v` contains the word `w` as this. -/
inductive Part (k : Bytes) : Val → Role → Bytes → Prop
  | key {v : Val} : Part k v .key k
  | text {b : Slice} : Part k (.str b) .text (str b)
  | elem {l : List Slice} {x : Slice} : x ∈ l → Part k (.list l) .elem (str x)
  | member {s : List Bytes} {x : Bytes} : x ∈ s → Part k (.set s) .member x
  | field {h : List (Bytes × Slice)} {x : Bytes × Slice} : x ∈ h → Part k (.hash h) .field x.1
  | value {h : List (Bytes × Slice)} {x : Bytes × Slice} : x ∈ h → Part k (.hash h) .text (str x.2)

/-- The word is in one of the databases at the start, or a command handed over so far has it in a place for such words. -/
inductive Known (s : Srv) (es : List Ev) (kd : Role) (w : Bytes) : Prop
  | held {db : Db} {k : Bytes} {v : Val} : db ∈ s.dbs → db.dict.get k = some v → Part k v kd w → Known s es kd w
  | given {i : Nat} {n : Slice} {args : List Slice} {name : Bytes} : .call i (n :: args) ∈ es → Folds (str n) name → Stows name args kd w →
      Known s es kd w

/-- Nobody has called a command that computes a new string. -/
def Unedited (es : List Ev) : Prop := ∀ i n args, .call i (n :: args) ∈ es → ∀ w ∈ editors, ¬ Folds (str n) w

section
variable {c : Cfg} {env : Env}

theorem told_says {P : Bytes → Prop} {d : Data} : Spoken P d ↔ ∀ b, Utters d b → P b := by
  constructor
  · rintro h b (rfl | ⟨xs, rfl, hx⟩)
    · exact h b rfl
    · exact h b hx
  · intro h
    match d with
    | .item x => exact fun b hb => h b (.inl (by rw [hb]))
    | .array none => trivial
    | .array (some xs) => exact fun b hb => h b (.inr ⟨xs, rfl, hb⟩)

theorem editors_ascii : ∀ w ∈ editors, ∀ c ∈ w, c < 128 := by decide

theorem stows_ascii {w : Bytes} {args : List Slice} {kd : Role} {x : Bytes} (h : Stows w args kd x) : ∀ c ∈ w, c < 128 := by
  have mem {L : List Bytes} (h : w ∈ L) (hL : ∀ w ∈ L, ∀ c ∈ w, c < 128) : ∀ c ∈ w, c < 128 := hL w h
  cases h with
  | _ h => first | exact mem h (by decide) | (subst h; decide)

theorem pair_unique {V : Type} {l : List (Bytes × V)} (h : (l.map (·.1)).Nodup) {k : Bytes} {v w : V} (hv : (k, v) ∈ l) (hw : (k, w) ∈ l) : v = w := by
  induction l with
  | nil => cases hv
  | cons x l ih =>
    simp only [List.map_cons, List.nodup_cons, List.mem_map, not_exists, not_and] at h
    rcases List.mem_cons.1 hv with hv | hv <;> rcases List.mem_cons.1 hw with hw | hw
    · rw [← hv] at hw; cases hw; rfl
    · exact absurd (by rw [← hv]) (h.1 _ hw)
    · exact absurd (by rw [← hw]) (h.1 _ hv)
    · exact ih h.2 hv hw

theorem db_known {s : Srv} (hI : s.Inv) (es : List Ev) (e : Bool) : ∀ db ∈ s.dbs, db.Of e (Known s es) := by
  intro db hdb seg hseg x hx
  obtain ⟨i, hi, rfl⟩ := Vector.getElem_of_mem hseg
  have hg : db.dict.get x.1 = some x.2 := by
    have hp := (hI db hdb).dict.place i hi x hx
    have hn := (hI db hdb).dict.nodup i hi
    unfold CMap.get
    have he : (db.dict.keyPos x.1).val = i := by rw [CMap.keyPos_val]; exact hp
    simp only [he]
    obtain ⟨v, hv⟩ := Option.isSome_iff_exists.1 ((mget_isSome_iff (db.dict.table[i]) x.1).2 (List.mem_map_of_mem hx))
    rw [hv, Option.some.injEq]
    exact pair_unique hn (mget_eq_some_mem hv) hx
  refine ⟨.held hdb hg .key, ?_⟩
  have hw := (hI db hdb).val _ _ hg
  obtain ⟨k, v⟩ := x
  match v with
  | .str b => exact .inr (.held hdb hg .text)
  | .hash h => exact fun y hy => ⟨.held hdb hg (.field hy), .inr (.held hdb hg (.value hy))⟩
  | .list l => exact fun y hy => .held hdb hg (.elem hy)
  | .set s => exact ⟨hw, fun y hy => .held hdb hg (.member hy)⟩

/-- What is asked of the reply to `cmd`. -/
def Right (e : Bool) (A : Role → Bytes → Prop) (cmd : List Slice) (d : Data) : Prop := ∀ n args, cmd = n :: args → Reply e A (toLower (str n)) d

/-- How far connection `i` has come. -/
def Honest (e : Bool) (A : Role → Bytes → Prop) (calls : List (List Slice)) (done : List (List Slice × Data)) : Call → Prop
  | .idle => calls = done.map (·.1)
  | .called cmd => calls = done.map (·.1) ++ [cmd]
  | .running _ p => ∃ cmd, calls = done.map (·.1) ++ [cmd] ∧ p.Plain e A (Right e A cmd)
  | .answered d => ∃ cmd, calls = done.map (·.1) ++ [cmd] ∧ Right e A cmd d

theorem hub_honest {s : Srv} {n : Nat} {e : Bool} {A : Role → Bytes → Prop} (hs : ∀ db ∈ s.dbs, db.Of e A) {es : List Ev} {g : Hub}
    (h : HubRun c env (Hub.start s n) es g)
    (hA : ∀ i m args, .call i (m :: args) ∈ es → ∀ kd x, Stows (toLower (str m)) args kd x → A kd x)
    (hE : e = true ∨ ∀ i m args, .call i (m :: args) ∈ es → toLower (str m) ∉ editors) :
    (∀ db ∈ g.dbs, db.Of e A) ∧ ∀ i x, g.calls[i]? = some x →
      ∃ done : List (List Slice × Data), (∀ y ∈ done, Right e A y.1 y.2) ∧ answersOf i es = done.map (·.2) ∧ Honest e A (callsOf i es) done x := by
  induction h with
  | refl =>
    refine ⟨hs, fun i x hx => ⟨[], by simp, rfl, ?_⟩⟩
    simp only [Hub.start, List.getElem?_replicate] at hx
    split at hx
    · cases hx; rfl
    · cases hx
  | @step es g1 g2 ev hr hst ih =>
    obtain ⟨ih1, ih2⟩ := ih (fun i m args hm => hA i m args (List.mem_append_left _ hm))
      (hE.imp_right fun h i m args hm => h i m args (List.mem_append_left _ hm))
    -- a connection that does nothing
    have other {i j : Nat} {calls : List Call} {y x : Call} (hij : i ≠ j) (hx : (calls.set i y)[j]? = some x) : calls[j]? = some x := by
      rwa [List.getElem?_set_ne hij] at hx
    have same {i : Nat} {calls : List Call} {y x : Call} (hx : (calls.set i y)[i]? = some x) : x = y := by
      rw [List.getElem?_set] at hx
      simp only [if_true] at hx
      split at hx
      · cases hx; rfl
      · cases hx
    have quiet {g2 : Hub} {i : Nat} {y : Call} (hg : g2.calls = g1.calls.set i y)
        (hy : ∀ x, g1.calls[i]? = some x → ∀ done, Honest e A (callsOf i es) done x → Honest e A (callsOf i es) done y)
        (hx : ∃ x, g1.calls[i]? = some x) : ∀ j x, g2.calls[j]? = some x →
        ∃ done : List (List Slice × Data), (∀ y ∈ done, Right e A y.1 y.2) ∧ answersOf j es = done.map (·.2) ∧ Honest e A (callsOf j es) done x := by
      intro j x hj
      rw [hg] at hj
      by_cases hij : i = j
      · subst hij
        cases same hj
        obtain ⟨x, hx⟩ := hx
        obtain ⟨done, h1, h2, h3⟩ := ih2 i x hx
        exact ⟨done, h1, h2, hy x hx done h3⟩
      · exact ih2 j x (other hij hj)
    cases hst with
    | @call g i cmd hc hi =>
      refine ⟨ih1, fun j x hx => ?_⟩
      by_cases hij : i = j
      · subst hij
        cases same hx
        obtain ⟨done, h1, h2, h3⟩ := ih2 i _ hi
        refine ⟨done, h1, by simpa [answersOf] using h2, ?_⟩
        have h3 : callsOf i es = _ := h3
        simp [Honest, callsOf, ← h3]
      · obtain ⟨done, h1, h2, h3⟩ := ih2 j x (other hij hx)
        refine ⟨done, h1, by simpa [answersOf] using h2, ?_⟩
        have : callsOf j (es ++ (some (Ev.call i cmd)).toList) = callsOf j es := by simp [callsOf, hij]
        rwa [this]
    | @answer g i d hc hi =>
      refine ⟨ih1, fun j x hx => ?_⟩
      have hcl : ∀ j, callsOf j (es ++ (some (Ev.answer i d)).toList) = callsOf j es := fun j => by simp [callsOf]
      by_cases hij : i = j
      · subst hij
        cases same hx
        obtain ⟨done, h1, h2, cmd, h3, h4⟩ := ih2 i _ hi
        refine ⟨done ++ [(cmd, d)], fun y hy => ?_, ?_, ?_⟩
        · rcases List.mem_append.1 hy with hy | hy
          · exact h1 y hy
          · rw [List.mem_singleton.1 hy]; exact h4
        · simp [answersOf, ← h2]
        · rw [hcl]; simpa [Honest] using h3
      · obtain ⟨done, h1, h2, h3⟩ := ih2 j x (other hij hx)
        refine ⟨done, h1, by simpa [answersOf, hij] using h2, ?_⟩
        rwa [hcl]
    | @unknown g i cmd d hc hi hd =>
      simp only [Option.toList, List.append_nil]
      refine ⟨ih1, quiet rfl (fun x hx done h3 => ?_) ⟨_, hi⟩⟩
      rw [hi] at hx; cases hx
      refine ⟨cmd, h3, fun m args hm => ?_⟩
      subst hm
      simp only [dispatch] at hd
      split at hd
      · cases hd
      split at hd
      · cases hd
      · cases hd; exact fun g _ => told_err
    | @select g i cmd cmd' hc hi hd =>
      simp only [Option.toList, List.append_nil]
      refine ⟨ih1, quiet rfl (fun x hx done h3 => ?_) ⟨_, hi⟩⟩
      rw [hi] at hx; cases hx
      refine ⟨cmd, h3, fun m args _ gi _ => ?_⟩
      unfold selectCmd
      split
      · split
        · exact told_err
        · split
          · exact told_simple
          · exact told_simple
      · exact told_err
    | @begin g i cmd p hc hi hd =>
      simp only [Option.toList, List.append_nil] at hA hE ⊢
      refine ⟨ih1, quiet rfl (fun x hx done h3 => ?_) ⟨_, hi⟩⟩
      rw [hi] at hx; cases hx
      refine ⟨cmd, h3, ?_⟩
      have hm : .call i cmd ∈ es := callsOf_mem.1 (by rw [h3]; simp)
      match cmd with
      | [] => simp [dispatch] at hd
      | m :: args =>
        refine (dispatch_deals hd (hA i m args hm) (hE.imp_right fun h => h i m args hm)).mono fun d hd m' args' he => ?_
        cases he
        exact hd
    | @panic g i cmd f hc hi hd =>
      simp only [Option.toList, List.append_nil]
      refine ⟨ih1, quiet rfl (fun x hx done h3 => ?_) ⟨_, hi⟩⟩
      rw [hi] at hx; cases hx
      exact ⟨cmd, h3, trivial⟩
    | @op g i d p p' db st' locks' hc hi hdb hst =>
      simp only [Option.toList, List.append_nil]
      obtain ⟨done, h1, h2, cmd, h3, h4⟩ := ih2 i _ hi
      obtain ⟨h5, h6⟩ := stepOp_plain (ih1 db (List.mem_of_getElem? hdb)) h4 hst
      refine ⟨fun db' hdb' => ?_, quiet rfl (fun x hx done' h3' => ?_) ⟨_, hi⟩⟩
      · rcases List.mem_or_eq_of_mem_set hdb' with h | rfl
        · exact ih1 _ h
        · exact h5
      · rw [hi] at hx; cases hx
        obtain ⟨cmd', h7, h8⟩ := h3'
        have : cmd' = cmd := by
          have := congrArg List.getLast? (h3.symm.trans h7)
          simpa using this.symm
        subst this
        exact ⟨cmd', h7, h6⟩
    | @finish g i d a hc hi =>
      simp only [Option.toList, List.append_nil]
      refine ⟨ih1, quiet rfl (fun x hx done h3 => ?_) ⟨_, hi⟩⟩
      rw [hi] at hx; cases hx
      exact h3

theorem hub_prefix {g g' : Hub} {es : List Ev} (h : HubRun c env g es g') : ∀ {es1 es2 : List Ev}, es = es1 ++ es2 → ∃ g1, HubRun c env g es1 g1 := by
  induction h with
  | refl => intro es1 es2 h; cases es1 with
    | nil => exact ⟨g, .refl⟩
    | cons _ _ => cases h
  | @step es g1 g2 e hr hs ih =>
    intro es1 es2 h
    match e with
    | none => exact ih (by simpa using h)
    | some e =>
      rcases List.eq_nil_or_concat es2 with rfl | ⟨l, x, rfl⟩
      · have h' := HubRun.step hr hs
        rw [h, List.append_nil] at h'
        exact ⟨g2, h'⟩
      · rw [List.concat_eq_append, ← List.append_assoc] at h
        exact ih (List.append_inj_left' h rfl)

/-- What the servers says comes from what it knows. -/
theorem source {s : Srv} (hI : s.Inv) {n : Nat} {es1 es2 : List Ev} {g : Hub} (h : HubRun c env (Hub.start s n) (es1 ++ es2) g) {e : Bool}
    (hE : e = true ∨ Unedited es1) {i : Nat} {nm : Slice} {args : List Slice} {d : Data} (hx : (nm :: args, d) ∈ exchanges i es1)
    {w : Bytes} (hw : Folds (str nm) w) {gi : Gift} (hg : (w, gi) ∈ gifts) {b : Bytes} (hb : Utters d b) : gi.Fits e (Known s es1) b := by
  obtain ⟨g1, h1⟩ := hub_prefix h rfl
  obtain ⟨-, h2⟩ := hub_honest (db_known hI es1 e) h1
    (fun j m a hm kd x hp => .given hm ((toLower_folds (stows_ascii hp)).1 rfl) hp)
    (hE.imp_right fun hu j m a hm hin => hu j m a hm _ hin ((toLower_folds (editors_ascii _ hin)).1 rfl))
  have hi : i < g1.calls.length := by
    rw [(hub_callers h1).1]
    exact (hub_callers h1).2 i _ (callsOf_mem.1 (List.of_mem_zip hx).1)
  obtain ⟨done, h3, h4, h5⟩ := h2 i _ (List.getElem?_eq_getElem hi)
  have hz : exchanges i es1 = done := by
    have hp : done.map (·.1) <+: callsOf i es1 := by
      revert h5
      cases g1.calls[i] with
      | idle => intro h; exact h ▸ List.prefix_rfl
      | called cmd => intro h; exact h ▸ List.prefix_append _ _
      | running d p => rintro ⟨cmd, h, -⟩; exact h ▸ List.prefix_append _ _
      | answered d => rintro ⟨cmd, h, -⟩; exact h ▸ List.prefix_append _ _
    obtain ⟨z, hz⟩ := hp
    rw [exchanges, h4, ← hz]
    conv => lhs; rw [← List.append_nil (done.map (·.2))]
    rw [List.zip_append (by simp)]
    simp [List.zip_map']
  rw [hz] at hx
  have ha : ∀ x ∈ gifts, ∀ c ∈ x.1, c < 128 := by decide
  have hl : ∀ x ∈ gifts, gifts.lookup x.1 = some x.2 := by
    simp only [gifts, List.forall_mem_cons]
    exact ⟨rfl, rfl, rfl, rfl, rfl, rfl, rfl, rfl, rfl, rfl, rfl, rfl, rfl, rfl, rfl, rfl, rfl, rfl, rfl, rfl, rfl, rfl, by simp⟩
  have hr := h3 _ hx nm args rfl gi (by rw [(toLower_folds (ha _ hg)).2 hw]; exact hl _ hg)
  exact told_says.1 hr b hb

/-! ### The theorems -/

section
variable {s : Srv} {n : Nat} {es1 es2 : List Ev} {g : Hub} {i : Nat} {nm : Slice} {args : List Slice} {d : Data} {w b : Bytes}

/-- **C100.**  An element of a list that a client is told was in a list at the start, or has been handed over as an element. -/
theorem C100_lists (hI : s.Inv) (h : HubRun c env (Hub.start s n) (es1 ++ es2) g) (hx : (nm :: args, d) ∈ exchanges i es1)
    (hw : w ∈ [b!"lpop", b!"rpop", b!"lindex", b!"lrange", b!"lmove"]) (hn : Folds (str nm) w) (hb : Utters d b) : Known s es1 .elem b := by
  simp only [List.mem_cons, List.not_mem_nil, or_false] at hw
  exact source (gi := .of .elem) hI h (.inl rfl) hx hn (by rcases hw with rfl | rfl | rfl | rfl | rfl <;> simp [gifts]) hb

/-- **C100.**  The same for the members of sets. -/
theorem C100_sets (hI : s.Inv) (h : HubRun c env (Hub.start s n) (es1 ++ es2) g) (hx : (nm :: args, d) ∈ exchanges i es1)
    (hw : w ∈ [b!"spop", b!"srandmember", b!"smembers", b!"sinter", b!"sunion", b!"sdiff"]) (hn : Folds (str nm) w) (hb : Utters d b) :
    Known s es1 .member b := by
  simp only [List.mem_cons, List.not_mem_nil, or_false] at hw
  exact source (gi := .of .member) hI h (.inl rfl) hx hn (by rcases hw with rfl | rfl | rfl | rfl | rfl | rfl <;> simp [gifts]) hb

/-- **C100.**  The same for the fields of hashes. -/
theorem C100_fields (hI : s.Inv) (h : HubRun c env (Hub.start s n) (es1 ++ es2) g) (hx : (nm :: args, d) ∈ exchanges i es1)
    (hn : Folds (str nm) b!"hkeys") (hb : Utters d b) : Known s es1 .field b :=
  source (gi := .of .field) hI h (.inl rfl) hx hn (by simp [gifts]) hb

/-- **C100.**  The same for strings and values of fields, until somebody calls a command that computes a new one. -/
theorem C100_values (hI : s.Inv) (h : HubRun c env (Hub.start s n) (es1 ++ es2) g) (hu : Unedited es1) (hx : (nm :: args, d) ∈ exchanges i es1)
    (hw : w ∈ [b!"get", b!"mget", b!"set", b!"hget", b!"hmget", b!"hvals"]) (hn : Folds (str nm) w) (hb : Utters d b) : Known s es1 .text b := by
  simp only [List.mem_cons, List.not_mem_nil, or_false] at hw
  exact (source (e := false) (gi := .text) hI h (.inr hu) hx hn (by rcases hw with rfl | rfl | rfl | rfl | rfl | rfl <;> simp [gifts]) hb).resolve_left
    (by simp)

/-- **C100.**  HGETALL and HRANDFIELD tell fields and their values. -/
theorem C100_pairs (hI : s.Inv) (h : HubRun c env (Hub.start s n) (es1 ++ es2) g) (hu : Unedited es1) (hx : (nm :: args, d) ∈ exchanges i es1)
    (hw : w ∈ [b!"hgetall", b!"hrandfield"]) (hn : Folds (str nm) w) (hb : Utters d b) : Known s es1 .field b ∨ Known s es1 .text b := by
  simp only [List.mem_cons, List.not_mem_nil, or_false] at hw
  exact (source (e := false) (gi := .pair) hI h (.inr hu) hx hn (by rcases hw with rfl | rfl <;> simp [gifts]) hb).imp_right
    fun h => h.resolve_left (by simp)

/-- **C100.**  GETRANGE tells a piece of a string. -/
theorem C100_range (hI : s.Inv) (h : HubRun c env (Hub.start s n) (es1 ++ es2) g) (hu : Unedited es1) (hx : (nm :: args, d) ∈ exchanges i es1)
    (hn : Folds (str nm) b!"getrange") (hb : Utters d b) (hne : b ≠ []) : ∃ t, Known s es1 .text t ∧ ∃ p q, t = p ++ b ++ q := by
  rcases source (e := false) (gi := .part) hI h (.inr hu) hx hn (by simp [gifts]) hb with h | h | ⟨t, h1, p, q, h2⟩
  · exact absurd h hne
  · cases h
  · exact ⟨t, h1, p, q, h2.symm⟩

/-- **C100.**  KEYS tells keys; but see `C100_keys_exception`. -/
theorem C100_keys (hI : s.Inv) (h : HubRun c env (Hub.start s n) (es1 ++ es2) g) (hx : (nm :: args, d) ∈ exchanges i es1)
    (hn : Folds (str nm) b!"keys") (hb : Utters d b) (hne : b ≠ []) : Known s es1 .key b :=
  (source (gi := .keys) hI h (.inl rfl) hx hn (by simp [gifts]) hb).resolve_left hne

/-- **C100.**  What is in the databases at any moment has been there at the start or has been handed over. -/
theorem C100_stored (hI : s.Inv) (h : HubRun c env (Hub.start s n) es1 g) {db : Db} (hdb : db ∈ g.dbs) {k : Bytes} {v : Val}
    (hv : db.dict.get k = some v) {kd : Role} (hk : kd = .text → Unedited es1) (hp : Part k v kd b) : Known s es1 kd b := by
  have key (e : Bool) (hE : e = true ∨ Unedited es1) : Known s es1 .key k ∧ v.Of e (Known s es1) := by
    have := (hub_honest (db_known hI es1 e) h (fun j m a hm kd x hp => .given hm ((toLower_folds (stows_ascii hp)).1 rfl) hp)
      (hE.imp_right fun hu j m a hm hin => hu j m a hm _ hin ((toLower_folds (editors_ascii _ hin)).1 rfl))).1 db hdb
    exact this _ (Vector.getElem_mem _) (k, v) (mget_eq_some_mem hv)
  cases hp with
  | key => exact (key true (.inl rfl)).1
  | text => exact (key false (.inr (hk rfl))).2.resolve_left (by simp)
  | elem hx => exact (key true (.inl rfl)).2 _ hx
  | member hx => exact (key true (.inl rfl)).2.2 _ hx
  | field hx => exact ((key true (.inl rfl)).2 _ hx).1
  | value hx => exact ((key false (.inr (hk rfl))).2 _ hx).2.resolve_left (by simp)

/-- **C100.**  The same behind the network: a word that was never handed over as an element, and that no list had at the start, is told to
nobody by the commands on lists. -/
theorem C100_full {f : Full} (hI : s.Inv) (h : FullRun c env (.start s n) es1 f) (hx : (nm :: args, d) ∈ exchanges i es1)
    (hw : w ∈ [b!"lpop", b!"rpop", b!"lindex", b!"lrange", b!"lmove"]) (hn : Folds (str nm) w) (hb : Utters d b) : Known s es1 .elem b :=
  C100_lists (es2 := []) hI (by rw [List.append_nil]; exact (full_split h).1) hx hw hn hb

end

/-- KEYS, too, tells only what is known. -/
def KeysKnown : Prop := ∀ (c : Cfg) (env : Env) (s : Srv) (n : Nat) (es : List Ev) (g : Hub) (i : Nat) (nm : Slice) (args : List Slice) (d : Data)
  (b : Bytes), s.Inv → HubRun c env (Hub.start s n) es g → (nm :: args, d) ∈ exchanges i es → Folds (str nm) b!"keys" → Utters d b → Known s es .key b

end

namespace Witness

/-- Two keys. -/
def pairDb : Srv := ⟨[dbOf [(b!"a", .str (some b!"1"), none), (b!"b", .list [some b!"x", some b!"y"], none)]], 0, 0⟩

theorem pairDb_inv : pairDb.Inv := fun db hdb => by
  rw [List.mem_singleton.1 hdb]
  exact dbOf_inv _ (by decide)

/-- Connection 0 counts the keys; before it lists them connection 1 deletes one. -/
def keysActs : List Act := [.call 0 [some b!"KEYS", some b!"*"], .go 0, .go 0, .call 1 [some b!"DEL", some b!"a"]] ++
  List.replicate 9 (.go 1) ++ List.replicate 9 (.go 0)

/-- What is seen of it. -/
def keysSeen : List Ev := [.call 0 [some b!"KEYS", some b!"*"], .call 1 [some b!"DEL", some b!"a"], .answer 1 (.item (.int 1)),
  .answer 0 (.array (some [.bulk (some b!"b"), .bulk (some b!"")]))]

theorem keys_run : ∃ g, HubRun cfg env (Hub.start pairDb 2) keysSeen g := by
  have key : ((Hub.start pairDb 2).acts cfg env keysActs).map (·.1) = some keysSeen := by decide +kernel
  obtain ⟨⟨es, g⟩, h, rfl⟩ := Option.map_eq_some_iff.1 key
  exact ⟨g, hub_acts h⟩

/-- Connection 0 pushes while connection 1 reads the list and then moves an element; connection 2 sets a string and gets it. -/
def tradeActs : List Act := [.call 0 [some b!"LPUSH", some b!"b", some b!"z"], .go 0, .call 1 [some b!"LRANGE", some b!"b", some b!"0", some b!"-1"],
  .call 2 [some b!"SET", some b!"t", some b!"hello"], .go 1, .go 2, .go 0, .go 2] ++ List.replicate 6 (.go 0) ++ List.replicate 6 (.go 1) ++
  List.replicate 8 (.go 2) ++ [.call 2 [some b!"GET", some b!"t"]] ++ List.replicate 7 (.go 2)

/-- What is seen of it. -/
def tradeSeen : List Ev := [.call 0 [some b!"LPUSH", some b!"b", some b!"z"], .call 1 [some b!"LRANGE", some b!"b", some b!"0", some b!"-1"],
  .call 2 [some b!"SET", some b!"t", some b!"hello"], .answer 1 (.array (some [.bulk (some b!"z"), .bulk (some b!"x"), .bulk (some b!"y")])),
  .answer 2 (.item (.simple b!"OK")), .call 2 [some b!"GET", some b!"t"], .answer 2 (.item (.bulk (some b!"hello")))]

end Witness

theorem stows_keys {args : List Slice} {kd : Role} {x : Bytes} : ¬ Stows b!"keys" args kd x := by
  intro h
  cases h <;> simp_all [makers]
theorem stows_del {args : List Slice} {kd : Role} {x : Bytes} : ¬ Stows b!"del" args kd x := by
  intro h
  cases h <;> simp_all [makers]

/-- **C100.**  KEYS tells the empty word, which nobody has handed over and which was never a key. -/
theorem C100_keys_exception : ¬ KeysKnown := by
  intro h
  obtain ⟨g, hr⟩ := Witness.keys_run
  cases h _ _ _ _ _ _ 0 (some b!"KEYS") [some b!"*"] (.array (some [.bulk (some b!"b"), .bulk (some b!"")])) b!"" Witness.pairDb_inv hr (by decide)
    ((toLower_folds (by decide)).1 (by decide +kernel)) (.inr ⟨_, rfl, by decide⟩) with
  | held hdb hg hp =>
    cases hp
    rw [List.mem_singleton.1 hdb] at hg
    exact absurd hg (by have : (Witness.dbOf [(b!"a", .str (some b!"1"), none), (b!"b", .list [some b!"x", some b!"y"], none)]).dict.get b!"" = none := by decide +kernel
                        simp [this])
  | given hc hf hp =>
    simp only [Witness.keysSeen, List.mem_cons, Ev.call.injEq, List.not_mem_nil, or_false, reduceCtorEq, List.cons.injEq] at hc
    rcases hc with ⟨rfl, rfl, rfl⟩ | ⟨rfl, rfl, rfl⟩
    · rw [← (toLower_folds (stows_ascii hp)).2 hf] at hp
      exact stows_keys (by rw [show b!"keys" = toLower (str (some b!"KEYS")) by decide +kernel]; exact hp)
    · rw [← (toLower_folds (stows_ascii hp)).2 hf] at hp
      exact stows_del (by rw [show b!"del" = toLower (str (some b!"DEL")) by decide +kernel]; exact hp)

theorem trade_run : ∃ g, HubRun Witness.cfg Witness.env (Hub.start Witness.pairDb 3) Witness.tradeSeen g := by
  have key : ((Hub.start Witness.pairDb 3).acts Witness.cfg Witness.env Witness.tradeActs).map (·.1) = some Witness.tradeSeen := by decide +kernel
  obtain ⟨⟨es, g⟩, h, rfl⟩ := Option.map_eq_some_iff.1 key
  exact ⟨g, hub_acts h⟩

theorem trade_unedited : Unedited Witness.tradeSeen := by
  intro i n args hc w hw hf
  have hl := (toLower_folds (editors_ascii w hw)).2 hf
  subst hl
  simp only [Witness.tradeSeen, List.mem_cons, Ev.call.injEq, List.not_mem_nil, or_false, false_or, reduceCtorEq, List.cons.injEq] at hc
  rcases hc with ⟨_, h, _⟩ | ⟨_, h, _⟩ | ⟨_, h, _⟩ | ⟨_, h, _⟩ <;> rw [h] at hw <;> clear h hf <;> revert hw <;> decide +kernel

/-- LRANGE tells `z`, which the other connection is pushing, and `x`, which has been there. -/
example : Known Witness.pairDb Witness.tradeSeen .elem b!"z" ∧ Known Witness.pairDb Witness.tradeSeen .elem b!"x" := by
  obtain ⟨g, h⟩ := trade_run
  have key (b : Bytes) (hb : b ∈ [b!"z", b!"x"]) : Known Witness.pairDb Witness.tradeSeen .elem b :=
    C100_lists (es2 := []) (i := 1) (nm := some b!"LRANGE") (w := b!"lrange") (args := [some b!"b", some b!"0", some b!"-1"])
      (d := .array (some [.bulk (some b!"z"), .bulk (some b!"x"), .bulk (some b!"y")])) Witness.pairDb_inv h (by decide) (by decide)
      ((toLower_folds (by decide)).1 (by decide +kernel)) (.inr ⟨_, rfl, by revert b; decide⟩)
  exact ⟨key _ (by decide), key _ (by decide)⟩

/-- GET tells what SET has brought. -/
example : Known Witness.pairDb Witness.tradeSeen .text b!"hello" := by
  obtain ⟨g, h⟩ := trade_run
  exact C100_values (es2 := []) (i := 2) (nm := some b!"GET") (w := b!"get") (args := [some b!"t"]) (d := .item (.bulk (some b!"hello")))
    Witness.pairDb_inv h trade_unedited (by decide) (by decide) ((toLower_folds (by decide)).1 (by decide +kernel)) (.inl rfl)

/-- A member of a set is not known as an element of a list. -/
example : Known ⟨[], 0, 0⟩ [.call 0 [some b!"sadd", some b!"k", some b!"a"]] .member b!"a" ∧
    ¬ Known ⟨[], 0, 0⟩ [.call 0 [some b!"sadd", some b!"k", some b!"a"]] .elem b!"a" := by
  have hl : toLower (str (some b!"sadd")) = b!"sadd" := by decide +kernel
  refine ⟨.given (List.mem_singleton.2 rfl) ((toLower_folds (by decide)).1 hl) (.add (i := 0) (x := some b!"a") rfl rfl), fun h => ?_⟩
  cases h with
  | held hdb => cases hdb
  | given hc hf hp =>
    simp only [List.mem_singleton, Ev.call.injEq, List.cons.injEq] at hc
    rw [hc.2.1] at hf
    rw [← (toLower_folds (stows_ascii hp)).2 hf, hl] at hp
    generalize b!"a" = z at hp
    cases hp <;> simp_all

end GRedis
