import Verif.Props.LoneCmds
import Verif.Props.LateCmds
import Verif.Props.Serial
/-
C62: concurrent commands and whole commands executed one at a time.
-/
namespace GRedis
open Prog Spec

theorem lookup_table {c : Cfg} {w : Bytes} {f : List Slice → Prog Data} (h : (cmdTable c).lookup w = some f) : (w, f) ∈ cmdTable c :=
  lookup_mem h

theorem script_session (c : Cfg) (s : Script) : Session c (s.prog c) := by
  induction s with
  | done ds => exact .done ds
  | send w args k ih =>
    rw [Script.prog]
    split
    · next f hf => exact .command (lookup_table hf) ih
    · exact ih _

theorem scripts_clients (c : Cfg) (ss : List Script) : Clients c (ss.map (Script.prog c)) := by
  refine ⟨fun p hp => ?_⟩
  obtain ⟨s, _, rfl⟩ := List.mem_map.1 hp
  exact script_session c s

/-- Only EXPIRE, SETEX and SET set deadlines. -/
theorem Script.plain_send {c : Cfg} {env : Env} {H : Int} {w : Bytes} {f : List Slice → Prog Data} {args : List Slice}
    {k : Data → Script} (hf : (cmdTable c).lookup w = some f) (ho : OneSection w args) (hw : w ∉ [b!"expire", b!"setex", b!"set"])
    (hk : ∀ d, (k d).Plain c env H) : (Script.send w args k).Plain c env H :=
  .send hf ho (late_lasting (table_late c env H _ (lookup_table hf) hw _)) hk

/-- `CommandByCommand` on the entries. -/
inductive ByEntries (c : Cfg) (env : Env) (E : Entries) (ss : List Script) : Entries → List Script → Prop
  | refl : ByEntries c env E ss E ss
  | step {E1 E2 : Entries} {ss1 : List Script} {t : Nat} {w : Bytes} {f : List Slice → Prog Data}
      {args : List Slice} {k : Data → Script} {d : Data} :
      ByEntries c env E ss E1 ss1 → ss1[t]? = some (.send w args k) → (cmdTable c).lookup w = some f → w ≠ b!"keys" →
      Alone env E1 (f (some w :: args)) d E2 → ByEntries c env E ss E2 (ss1.set t (k d))

section
variable {α β : Type} {c : Cfg} {env : Env} {H : Int}

theorem Partway.trans {E L M : Entries} {p q r : Prog α} (h1 : Partway env E p L q) (h2 : Partway env L q M r) :
    Partway env E p M r := by
  induction h2 with
  | refl => exact h1
  | step _ hd ih => exact .step ih hd

theorem Partway.one {E L : Entries} {o : Op} {f : o.Ret → Prog α} {r : o.Ret} (hd : Does env E o r L) :
    Partway env E (.op o f) L (f r) := .step .refl hd

/-- Executing a program alone gives an execution of this kind. -/
theorem run_alone {p : Prog α} {st st' : St} {a : α} (h : run env p st = .ok (a, st')) : Alone env (entries st) p a (entries st') := by
  induction p generalizing st with
  | ret b => simp only [run, Except.ok.injEq, Prod.mk.injEq] at h; obtain ⟨rfl, rfl⟩ := h; exact .refl
  | fault e => cases h
  | op o k ih => exact (Partway.one (exec_does env st o)).trans (ih _ h)

/-- Where no deadline has passed, everything `q` can do `p` can do. -/
def Leads (env : Env) (H : Int) (p q : Prog α) : Prop :=
  ∀ E L r, E.lastsTo H → Partway env E q L r → Partway env E p L r

theorem Leads.refl {p : Prog α} : Leads env H p p := fun _ _ _ _ h => h
theorem Leads.trans {p q r : Prog α} (h1 : Leads env H p q) (h2 : Leads env H q r) : Leads env H p r :=
  fun E L s hE h => h1 E L s hE (h2 E L s hE h)

/-- The rest of a check for expiry after the deadline has been read. -/
def halfCheck (c : Cfg) (key : Bytes) (t : Int) : Prog Bool := do
  let n ← now
  if decide (n > t) then
    withLock c key (do
      let _ ← dictDel key
      let _ ← expDel key
      return true)
  else return false

theorem check_eq (c : Cfg) (key : Bytes) (f : Bool → Prog α) : (deleteExpiredKey c key >>= f) =
    .op (.expGet key) fun r => match r with
      | none => f false
      | some t => halfCheck c key t >>= f := by
  show Prog.op _ _ = _
  congr 1
  funext r
  cases r <;> rfl

theorem half_eq (c : Cfg) (key : Bytes) (t : Int) (f : Bool → Prog α) : ∃ g : Int → Prog α, (halfCheck c key t >>= f) = .op .now g ∧
    ∀ n, n ≤ t → g n = f false := by
  refine ⟨_, rfl, fun n hn => ?_⟩
  show Prog.bind (if decide (n > t) = true then _ else _) f = _
  rw [if_neg (by simpa using hn)]
  rfl

theorem check_leads (hclk : ∀ i, env.clock i ≤ H) (c : Cfg) (key : Bytes) (f : Bool → Prog α) :
    Leads env H (deleteExpiredKey c key >>= f) (f false) := by
  intro E L r hE hp
  refine Partway.trans ?_ hp
  rw [check_eq]
  cases he : (E key).2 with
  | none => exact Partway.one (o := .expGet key) (r := none) ⟨he.symm, rfl⟩
  | some t =>
    obtain ⟨g, hg, hn⟩ := half_eq c key t f
    refine Partway.trans (Partway.one (o := .expGet key) (r := some t) ⟨he.symm, rfl⟩) ?_
    show Partway env E (halfCheck c key t >>= f) E (f false)
    rw [hg, ← hn (env.clock 0) (Int.le_trans (hclk 0) (hE key t he))]
    exact Partway.one (o := .now) ⟨⟨0, rfl⟩, rfl⟩

theorem now_leads {f : Int → Prog α} {n : Int} (hn : ∃ i, n = env.clock i) : Leads env H (.op .now f) (f n) :=
  fun _ _ _ _ hp => (Partway.one (o := .now) ⟨hn, rfl⟩).trans hp

/-- A section of a program followed by more: the section belongs to the program. -/
theorem within_bind {E L : Entries} {q : Prog α} {k : α → Prog β} {h : Held} {p' : Prog β} (hl : Lone q)
    (hq : ∀ a, q ≠ .ret a) (hw : Within env E (q.bind k) h L p') :
    ∃ q', p' = q'.bind k ∧ q'.Sole h ∧ Partway env E q L q' := by
  induction hw with
  | @enter o f r hp ho =>
    cases hl with
    | ret a => exact absurd rfl (hq a)
    | fault e => cases hp
    | now g _ => cases hp; exact absurd ho id
    | check c' key g _ => rw [check_eq] at hp; cases hp; exact absurd ho id
    | @sect o' g ho' hs =>
      cases hp
      refine ⟨g r, rfl, hs r, Partway.one ?_⟩
      cases o <;> first | exact absurd ho id | exact rfl
  | @next h L L' o f r _ hne hd ih =>
    obtain ⟨q', hq', hs, hp⟩ := ih
    cases q' with
    | ret a => exact absurd hs hne
    | fault e => cases hq'
    | op o' g =>
      cases hq'
      exact ⟨g r, rfl, hs.2 r, .step hp hd⟩

/-- The client goes on. -/
abbrev Script.next (c : Cfg) (k : Data → Script) : Data → Prog (List Data) := fun d => (k d).prog c

/-- What a client has done of its next command. -/
inductive Pending (c : Cfg) (env : Env) (H : Int) : Script → Prog (List Data) → Prop
  | done (ds : List Data) : Pending c env H (.done ds) (.ret ds)
  | inside {w : Bytes} {f : List Slice → Prog Data} {args : List Slice} {k : Data → Script} {q : Prog Data}
      {p : Prog (List Data)} :
      (cmdTable c).lookup w = some f → w ≠ b!"keys" → Lasting env H (f (some w :: args)) → (∀ d, (k d).Plain c env H) → Lone q →
      (∀ d, q ≠ .ret d) → Leads env H (f (some w :: args)) q →
      (p = q >>= Script.next c k ∨ ∃ (c' : Cfg) (key : Bytes) (g : Bool → Prog Data) (t : Int), q = deleteExpiredKey c' key >>= g ∧
        Lone (g false) ∧ H ≤ t ∧ p = (halfCheck c' key t >>= g) >>= Script.next c k) →
      Pending c env H (.send w args k) p

theorem keys_out {w : Bytes} {args : List Slice} (h : OneSection w args) : w ≠ b!"keys" := fun he => h.1 (by simp [he])

/-- Commands that are answered without looking at the database are executed at once. -/
theorem settle {E0 E : Entries} {ss0 ss : List Script} {t : Nat} {s : Script} (h : s.Plain c env H) (hE : E.lastsTo H)
    (hb : ByEntries c env E0 ss0 E ss) (ht : ss[t]? = some s) :
    ∃ s', ByEntries c env E0 ss0 E (ss.set t s') ∧ Pending c env H s' (s.prog c) := by
  have hlt : t < ss.length := (List.getElem?_eq_some_iff.1 ht).1
  have hset : ss.set t s = ss := by
    obtain ⟨_, rfl⟩ := List.getElem?_eq_some_iff.1 ht
    exact List.set_getElem_self hlt
  induction h generalizing ss with
  | done ds => exact ⟨.done ds, by rw [hset]; exact hb, .done ds⟩
  | @send w f args k hf ho hl hk ih =>
    have hprog : (Script.send w args k).prog c = f (some w :: args) >>= Script.next c k := by rw [Script.prog, hf]
    have hlone := table_lone c _ (lookup_table hf) (some w) args ho
    cases he : f (some w :: args) with
    | ret d =>
      have ha : Alone env E (f (some w :: args)) d E := by rw [he]; exact .refl
      obtain ⟨s', h1, h2⟩ := ih d (ss := ss.set t (k d)) (.step hb ht hf (keys_out ho) ha) (by simp [hlt]) (by simp [hlt]) (by simp)
      refine ⟨s', by simpa using h1, ?_⟩
      rw [hprog, he]; exact h2
    | fault e =>
      exact ⟨_, by rw [hset]; exact hb, .inside hf (keys_out ho) hl hk hlone (fun d hd => by have := he.symm.trans hd; cases this) .refl (.inl hprog)⟩
    | op o g =>
      exact ⟨_, by rw [hset]; exact hb, .inside hf (keys_out ho) hl hk hlone (fun d hd => by have := he.symm.trans hd; cases this) .refl (.inl hprog)⟩

theorem pending_ret {s : Script} {p : Prog (List Data)} {ds : List Data} (h : Pending c env H s p) (hp : p = .ret ds) : s = .done ds := by
  cases h with
  | done ds => cases hp; rfl
  | @inside w f args k q _ hf hnk hlast hk hl hq hlead hpos =>
    rcases hpos with rfl | ⟨c', key, g, t, rfl, hg, ht, rfl⟩
    · cases q with
      | ret d => exact absurd rfl (hq d)
      | fault e => cases hp
      | op o f => cases hp
    · cases hp

/-- A command has been executed whole: the database is now `L` and the client goes on with `p'`. -/
def Commits (c : Cfg) (env : Env) (H : Int) (s : Script) (E L : Entries) (p' : Prog (List Data)) : Prop :=
  ∃ (w : Bytes) (f : List Slice → Prog Data) (args : List Slice) (k : Data → Script) (d : Data), s = .send w args k ∧
    (cmdTable c).lookup w = some f ∧ w ≠ b!"keys" ∧ Alone env E (f (some w :: args)) d L ∧ p' = (k d).prog c ∧ (k d).Plain c env H

/-- Sections of a client whose next command has been begun. -/
theorem pending_within {s : Script} {p : Prog (List Data)} {E L : Entries} {h : Held} {p' : Prog (List Data)} (hp : Pending c env H s p)
    (hw : Within env E p h L p') (hE : E.lastsTo H) : L.lastsTo H ∧ (h = [] → Commits c env H s E L p') := by
  cases hp with
  | done ds =>
    exfalso
    have : ∀ {h L p'}, Within env E (.ret ds) h L p' → False := by
      intro h L p' hw
      induction hw with
      | enter r hp ho => cases hp
      | next _ _ _ ih => exact ih
    exact this hw
  | @inside w f args k q _ hf hnk hlast hk hl hq hlead hpos =>
    rcases hpos with rfl | ⟨c', key, g, t, rfl, hg, ht, rfl⟩
    · obtain ⟨q', rfl, hs, hpw⟩ := within_bind hl hq hw
      refine ⟨hlast E L q' hE (hlead E L q' hE hpw), ?_⟩
      rintro rfl
      cases q' with
      | ret d => exact ⟨w, f, args, k, d, rfl, hf, hnk, hlead E L _ hE hpw, rfl, hk d⟩
      | fault e => exact absurd rfl hs
      | op o f' => exact absurd rfl hs.1
    · exfalso
      obtain ⟨g', hg', _⟩ := half_eq c' key t g
      rw [hg'] at hw
      have : ∀ {h L p'}, Within env E (.op .now g' >>= Script.next c k) h L p' → False := by
        intro h L p' hw
        induction hw with
        | enter r hp ho => cases hp; exact absurd ho id
        | next _ _ _ ih => exact ih
      exact this hw

/-- Operations outside of sections bring a command nearer to its section or finish it. -/
theorem pending_outside (hclk : ∀ i, env.clock i ≤ H) {s : Script} {L : Entries} {o : Op} {f : o.Ret → Prog (List Data)}
    {r : o.Ret} (hp : Pending c env H s (.op o f)) (hn : o.noLock) (hL : L.lastsTo H) (hd : Does env L o r L) :
    Pending c env H s (f r) ∨ ∀ E : Entries, E.lastsTo H → Commits c env H s E E (f r) := by
  cases hp with
  | @inside w f' args k q _ hf hnk hlast hk hl hq hlead hpos =>
    have fin : ∀ q', Lone q' → Leads env H (f' (some w :: args)) q' → f r = q' >>= Script.next c k →
        Pending c env H (.send w args k) (f r) ∨ ∀ E : Entries, E.lastsTo H → Commits c env H (.send w args k) E E (f r) := by
      intro q' hl' hlead' he
      cases q' with
      | ret d => exact .inr fun E hE => ⟨w, f', args, k, d, rfl, hf, hnk, hlead' E E _ hE .refl, he, hk d⟩
      | fault e => exact .inl (.inside hf hnk hlast hk hl' (by simp) hlead' (.inl he))
      | op o' g => exact .inl (.inside hf hnk hlast hk hl' (by simp) hlead' (.inl he))
    rcases hpos with hp | ⟨c', key, g, t, rfl, hg, ht, hp⟩
    · cases hl with
      | ret a => exact absurd rfl (hq a)
      | fault e => cases hp
      | now g hg =>
        cases hp
        exact fin (g r) (hg r) (hlead.trans (now_leads hd.1)) rfl
      | check c' key g hg =>
        rw [check_eq] at hp
        cases hp
        cases r with
        | none => exact fin (g false) hg (hlead.trans (check_leads hclk c' key g)) rfl
        | some t =>
          exact .inl (.inside hf hnk hlast hk (.check c' key g hg) hq hlead (.inr ⟨c', key, g, t, rfl, hg, hL key t hd.1.symm, rfl⟩))
      | @sect o' g ho hs =>
        cases hp
        cases o <;> first | exact absurd ho id | exact absurd hn id
    · obtain ⟨g', hg', hn'⟩ := half_eq c' key t g
      rw [hg'] at hp
      cases hp
      obtain ⟨⟨i, hi⟩, _⟩ := hd
      have hr : g' r = g false := hn' r (by rw [hi]; exact Int.le_trans (hclk i) ht)
      refine fin (g false) hg (hlead.trans (check_leads hclk c' key g)) ?_
      show (g' r).bind _ = _
      rw [hr]; rfl

/-- The configurations correspond: every client has done part of its next command. -/
structure Follows (c : Cfg) (env : Env) (H : Int) (ss : List Script) (ps : List (Prog (List Data))) : Prop where
  len : ss.length = ps.length
  pend : ∀ (t : Nat) (p : Prog (List Data)), ps[t]? = some p → ∃ s, ss[t]? = some s ∧ Pending c env H s p

theorem Follows.set {ss : List Script} {ps : List (Prog (List Data))} (h : Follows c env H ss ps) {t : Nat} {s : Script} {p : Prog (List Data)}
    (hp : Pending c env H s p) : Follows c env H (ss.set t s) (ps.set t p) := by
  refine ⟨by simp [h.len], fun u p' hu => ?_⟩
  rw [List.getElem?_set] at hu ⊢
  split at hu
  · next he =>
    subst he
    split at hu
    · next hl =>
      simp only [Option.some.injEq] at hu
      subst hu
      exact ⟨s, by simp [h.len, hl], hp⟩
    · cases hu
  · next he =>
    rw [if_neg he]
    exact h.pend u p' hu

theorem Follows.keep {ss : List Script} {ps : List (Prog (List Data))} (h : Follows c env H ss ps) {t : Nat} {s : Script} {p : Prog (List Data)}
    (hg : ss[t]? = some s) (hp : Pending c env H s p) : Follows c env H ss (ps.set t p) := by
  have := h.set (t := t) hp
  have he : ss.set t s = ss := by
    obtain ⟨hlt, rfl⟩ := List.getElem?_eq_some_iff.1 hg
    exact List.set_getElem_self hlt
  rwa [he] at this

theorem settle_all {E : Entries} {ss : List Script} (hE : E.lastsTo H) (hss : ∀ s ∈ ss, s.Plain c env H) :
    ∃ ss', Follows c env H ss' (ss.map (Script.prog c)) ∧ ByEntries c env E ss E ss' := by
  have key : ∀ n : Nat, ∃ ss' : List Script, ss'.length = ss.length ∧ ByEntries c env E ss E ss' ∧
      (∀ (t : Nat) (s : Script), ss[t]? = some s → t < n → ∃ s', ss'[t]? = some s' ∧ Pending c env H s' (s.prog c)) ∧
      ∀ t, n ≤ t → ss'[t]? = ss[t]? := by
    intro n
    induction n with
    | zero => exact ⟨ss, rfl, .refl, fun _ _ _ h => absurd h (Nat.not_lt_zero _), fun _ _ => rfl⟩
    | succ n ih =>
      obtain ⟨ss', h1, h2, h3, h4⟩ := ih
      cases hs : ss[n]? with
      | none =>
        refine ⟨ss', h1, h2, fun t s ht hlt => ?_, fun t ht => h4 t (Nat.le_of_succ_le ht)⟩
        rcases Nat.lt_succ_iff_lt_or_eq.1 hlt with h | rfl
        · exact h3 t s ht h
        · rw [hs] at ht; cases ht
      | some s =>
        obtain ⟨s', h5, h6⟩ := settle (hss s (List.mem_of_getElem? hs)) hE h2 ((h4 n (Nat.le_refl _)).trans hs)
        have hlt : n < ss'.length := by rw [h1]; exact (List.getElem?_eq_some_iff.1 hs).1
        refine ⟨ss'.set n s', by simp [h1], h5, fun t s1 ht hlt' => ?_, fun t ht => ?_⟩
        · rcases Nat.lt_succ_iff_lt_or_eq.1 hlt' with h | rfl
          · rw [List.getElem?_set_ne (Nat.ne_of_gt h)]; exact h3 t s1 ht h
          · rw [hs] at ht; cases ht
            exact ⟨s', by simp [hlt], h6⟩
        · rw [List.getElem?_set_ne (Nat.ne_of_lt ht)]; exact h4 t (Nat.le_of_succ_le ht)
  obtain ⟨ss', h1, h2, h3, _⟩ := key ss.length
  refine ⟨ss', ⟨by simp [h1], fun t p hp => ?_⟩, h2⟩
  rw [List.getElem?_map, Option.map_eq_some_iff] at hp
  obtain ⟨s, hs, rfl⟩ := hp
  exact h3 t s hs (List.getElem?_eq_some_iff.1 hs).1

theorem commit {E0 E L : Entries} {ss0 ss : List Script} {ps : List (Prog (List Data))} {t : Nat} {s : Script} {p' : Prog (List Data)}
    (hf : Follows c env H ss ps) (hb : ByEntries c env E0 ss0 E ss) (ht : ss[t]? = some s) (hL : L.lastsTo H)
    (hc : Commits c env H s E L p') : ∃ ss', Follows c env H ss' (ps.set t p') ∧ ByEntries c env E0 ss0 L ss' := by
  obtain ⟨w, f, args, k, d, rfl, hlk, hnk, ha, rfl, hk⟩ := hc
  have hlt : t < ss.length := (List.getElem?_eq_some_iff.1 ht).1
  obtain ⟨s', h1, h2⟩ := settle hk hL (.step hb ht hlk hnk ha) (t := t) (by simp [hlt])
  refine ⟨_, ?_, h1⟩
  rw [List.set_set]
  exact hf.set h2

theorem follows_reach (hclk : ∀ i, env.clock i ≤ H) {E : Entries} {ss : List Script} (hE : E.lastsTo H)
    (hss : ∀ s ∈ ss, s.Plain c env H) {E' : Entries} {qs : List (Prog (List Data))}
    (h : OneAtATime env E (ss.map (Script.prog c)) E' qs) :
    E'.lastsTo H ∧ ∃ gs, Follows c env H gs qs ∧ ByEntries c env E ss E' gs := by
  induction h with
  | refl => exact ⟨hE, settle_all hE hss⟩
  | step _ hs ih =>
    obtain ⟨h1, gs, h2, h3⟩ := ih
    cases hs with
    | whole hp hw =>
      obtain ⟨s, hg, hpend⟩ := h2.pend _ _ hp
      obtain ⟨h4, h5⟩ := pending_within hpend hw h1
      exact ⟨h4, commit h2 h3 hg h4 (h5 rfl)⟩
    | outside hp hn hd =>
      obtain ⟨s, hg, hpend⟩ := h2.pend _ _ hp
      rcases pending_outside hclk hpend hn h1 hd with h4 | h4
      · exact ⟨h1, gs, h2.keep hg h4, h3⟩
      · exact ⟨h1, commit h2 h3 hg h1 (h4 _ h1)⟩
    | peek hp hn hu hne hw hh hd =>
      obtain ⟨s, hg, hpend⟩ := h2.pend _ _ hp
      obtain ⟨gu, hgu, hpendu⟩ := h2.pend _ _ hu
      have hL := (pending_within hpendu hw h1).1
      rcases pending_outside hclk hpend hn hL hd with h4 | h4
      · exact ⟨h1, gs, h2.keep hg h4, h3⟩
      · exact ⟨h1, commit h2 h3 hg h1 (h4 _ h1)⟩

end

/-! ### From entries to databases -/

theorem run_congr {α : Type} {e1 e2 : Env} {p : Prog α} {st : St} (h : ∀ i, st.tick ≤ i → e1.clock i = e2.clock i ∧ e1.ord i = e2.ord i) :
    run e1 p st = run e2 p st := by
  induction p generalizing st with
  | ret a => rfl
  | fault e => rfl
  | op o k ih =>
    have h1 : o.exec e1 st = o.exec e2 st := by
      cases o <;> simp only [Op.exec] <;> first | rfl | rw [(h _ (Nat.le_refl _)).1] | rw [(h _ (Nat.le_refl _)).2]
    have h2 : st.tick ≤ (o.exec e2 st).2.tick := by cases o <;> simp [Op.exec]
    simp only [run, h1]
    exact ih _ fun i hi => h i (Nat.le_trans h2 hi)

/-- A whole-table operation. -/
def Op.scans : Op → Prop
  | .dictCount => True
  | .dictSize => True
  | .dictSegKeys _ => True
  | _ => False

theorem partway_front {α : Type} {env : Env} {E L : Entries} {p q : Prog α} (h : Partway env E p L q) :
    (p = q ∧ E = L) ∨ ∃ (o : Op) (f : o.Ret → Prog α) (r : o.Ret) (E1 : Entries), p = .op o f ∧ Does env E o r E1 ∧ Partway env E1 (f r) L q := by
  induction h with
  | refl => exact .inl ⟨rfl, rfl⟩
  | @step L L' o f r _ hd ih =>
    rcases ih with ⟨rfl, rfl⟩ | ⟨o', f', r', E1, hp, hd', hw⟩
    · exact .inr ⟨o, f, r, L', rfl, hd, .refl⟩
    · exact .inr ⟨o', f', r', E1, hp, hd', .step hw hd⟩

/-- An environment with the reading at one tick replaced. -/
def Env.patch (env : Env) (i : Nat) (t : Int) (o : List Bytes → List Bytes) (ho : ∀ l, (o l).Perm l) : Env where
  clock j := if j = i then t else env.clock j
  ord j := if j = i then o else env.ord j
  ord_perm j l := by split <;> simp [ho, env.ord_perm]

theorem alone_run {α : Type} {c : Cfg} {K : Bytes → Prop} {R : Held → α → Prop} {env : Env} (hK : ∃ x, ¬ K x) {p : Prog α} {h : Held} {st : St}
    {a : α} {E' : Entries} (hp : p.Disc c K R h) (ha : Alone env (entries st) p a E') :
    ∃ env' st', env'.From env ∧ run env' p st = .ok (a, st') ∧ entries st' = E' := by
  induction p generalizing h st with
  | ret b =>
    rcases partway_front ha with ⟨he, hE⟩ | ⟨o, f, r, E1, hp, _⟩
    · cases he; exact ⟨env, st, ⟨fun i => ⟨i, rfl⟩, fun i => ⟨i, rfl⟩⟩, rfl, hE⟩
    · cases hp
  | fault e =>
    rcases partway_front ha with ⟨he, hE⟩ | ⟨o, f, r, E1, hp, _⟩
    · cases he
    · cases hp
  | op o k ih =>
    rcases partway_front ha with ⟨he, hE⟩ | ⟨o', f, r, E1, he, hd, hw⟩
    · cases he
    cases he
    have ho := hp.1
    obtain ⟨x, hx⟩ := hK
    have hx2 := exec_does env st o
    have det : (∀ env', o.exec env' st = o.exec env st) → (o.exec env st).1 = r → entries (o.exec env st).2 = E1 →
        ∃ env' st', env'.From env ∧ run env' (.op o k) st = .ok (a, st') ∧ entries st' = E' := by
      intro hdet h1 h2
      obtain ⟨env', st', hf, hr, hE⟩ := ih r (hp.2 r) (st := (o.exec env st).2) (by rw [h2]; exact hw)
      refine ⟨env', st', hf, ?_, hE⟩
      simp only [run]
      rw [hdet env', h1]; exact hr
    have tick : ∀ (t : Int) (od : List Bytes → List Bytes) (hod : ∀ l, (od l).Perm l), (∃ i, t = env.clock i) → (∃ i, od = env.ord i) →
        (∀ env' : Env, env'.clock st.tick = t → env'.ord st.tick = od → o.exec env' st = (r, ⟨st.db, st.tick + 1⟩)) → E1 = entries st →
        ∃ env' st', env'.From env ∧ run env' (.op o k) st = .ok (a, st') ∧ entries st' = E' := by
      rintro t od hod ⟨i, hi⟩ ⟨j, hj⟩ hex rfl
      obtain ⟨env', st', hf, hr, hE⟩ := ih r (hp.2 r) (st := ⟨st.db, st.tick + 1⟩) hw
      refine ⟨env'.patch st.tick t od hod, st', ⟨fun i' => ?_, fun i' => ?_⟩, ?_, hE⟩
      · simp only [Env.patch]; split
        · exact ⟨i, hi⟩
        · exact hf.clock i'
      · simp only [Env.patch]; split
        · exact ⟨j, hj⟩
        · exact hf.ord i'
      · simp only [run]
        rw [hex (env'.patch st.tick t od hod) (by simp [Env.patch]) (by simp [Env.patch]), ← hr]
        refine run_congr fun i' hi' => ?_
        have : i' ≠ st.tick := by intro he; subst he; exact absurd hi' (Nat.not_succ_le_self _)
        simp [Env.patch, this]
    cases o <;> simp only [Does] at hd hx2
    case now =>
      refine tick r (env.ord 0) (env.ord_perm 0) hd.1 ⟨0, rfl⟩ (fun env' h1 _ => ?_) hd.2
      simp only [Op.exec, h1]
    case order l =>
      obtain ⟨i, hi⟩ := hd.1
      refine tick (env.clock 0) (env.ord i) (env.ord_perm i) ⟨0, rfl⟩ ⟨i, rfl⟩ (fun env' _ h2 => ?_) hd.2
      simp only [Op.exec, h2, hi]
    case dictCount => exact absurd (ho.2 x) hx
    case dictSize => exact absurd (ho.2 x) hx
    case dictSegKeys => exact absurd (ho.2 x) hx
    all_goals first
      | exact det (fun _ => rfl) (hx2.1.trans hd.1.symm) (hx2.2.trans hd.2.symm)
      | exact det (fun _ => rfl) rfl (hx2.trans hd.symm)

theorem commands_scan : ∀ e ∈ commands, e.2 = .everything → e.1 = b!"keys" := by decide +kernel

theorem byEntries_run {c : Cfg} {env : Env} {st : St} {ss qs : List Script} {E : Entries}
    (h : ByEntries c env (entries st) ss E qs) : ∃ st', CommandByCommand c env st ss st' qs ∧ entries st' = E := by
  induction h with
  | refl => exact ⟨st, .refl, rfl⟩
  | @step E1 E2 ps1 t w f args k d _ hp hf hnk ha ih =>
    obtain ⟨st1, h1, rfl⟩ := ih
    have hm := lookup_table hf
    have hw : w ∈ commands.map (·.1) := by
      rw [← table_names c]; exact List.mem_map_of_mem (f := (·.1)) hm
    obtain ⟨⟨w', ka⟩, hwm, rfl⟩ := List.mem_map.1 hw
    have hd := table_disc c _ (zip_mem (table_names c).symm commands_nodup hwm hm) (some w') args
    obtain ⟨env', st2, h2, h3, h4⟩ := alone_run (names_fresh _ fun he => hnk (commands_scan _ hwm he)) hd ha
    exact ⟨st2, .step h1 hp hf h2 h3, h4⟩

/-- **C62.**  Clients send commands that work in one critical section, at different speeds and interleaved in any way, while
no deadline passes.  When all have finished, their replies and the values and deadlines of all keys are those of executing
whole commands one at a time. -/
theorem C62_atomic_partial {c : Cfg} {env : Env} {H : Int} {st : St} {ss : List Script} {g : Shared (List Data)}
    (hclk : ∀ i, env.clock i ≤ H) (hst : (entries st).lastsTo H) (hss : ∀ s ∈ ss, s.Plain c env H)
    (h : Reach env ⟨st, freeLocks, ss.map (Script.prog c)⟩ g) (hf : ∀ p ∈ g.threads, Finished p) :
    ∃ (st' : St) (dss : List (List Data)), CommandByCommand c env st ss st' (dss.map .done) ∧ g.threads = dss.map .ret ∧
      ∀ k, (st'.db.dict.get k, st'.db.exp.get k) = g.entry k := by
  obtain ⟨_, gs, h2, h3⟩ := follows_reach hclk hst hss (C51_serializable (scripts_clients c ss) h hf)
  obtain ⟨st', h4, h5⟩ := byEntries_run h3
  have : ∃ dss : List (List Data), gs = dss.map .done ∧ g.threads = dss.map .ret := by
    clear h3 h4 h
    have key : ∀ (ps : List (Prog (List Data))) (gs : List Script), gs.length = ps.length → (∀ p ∈ ps, Finished p) →
        (∀ (t : Nat) (p : Prog (List Data)), ps[t]? = some p → ∃ s, gs[t]? = some s ∧ Pending c env H s p) →
        ∃ dss : List (List Data), gs = dss.map .done ∧ ps = dss.map .ret := by
      intro ps
      induction ps with
      | nil => intro gs hl _ _; exact ⟨[], List.length_eq_zero_iff.1 hl, rfl⟩
      | cons p ps ih =>
        intro gs hl hf hp
        cases gs with
        | nil => cases hl
        | cons s gs =>
          obtain ⟨dss, h6, h7⟩ := ih gs (by simpa using hl) (fun p hp => hf p (List.mem_cons_of_mem _ hp))
            fun t p ht => hp (t + 1) p ht
          obtain ⟨ds, rfl⟩ := hf p (by simp)
          obtain ⟨s', hs', hpend⟩ := hp 0 _ rfl
          cases hs'
          exact ⟨ds :: dss, by rw [pending_ret hpend rfl, h6]; rfl, by rw [h7]; rfl⟩
    exact key _ _ h2.len hf h2.pend
  obtain ⟨dss, rfl, h7⟩ := this
  exact ⟨st', dss, h4, h7, fun k => congrFun h5 k⟩

end GRedis
