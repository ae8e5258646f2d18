import Verif.Model.Hub
import Verif.Props.Atomic
/-
C69: concurrent commands take effect at one moment between call and answer.
-/
namespace GRedis
open Prog Spec

/-! ### A command while it runs -/

section
variable {env : Env} {H : Int}

/-- What remains of the command `p0` before its outcome is decided. -/
def Undecided (env : Env) (H : Int) (p0 p : Prog Data) : Prop :=
  ∃ q : Prog Data, Lone q ∧ (∀ d, q ≠ .ret d) ∧ Leads env H p0 q ∧
    (p = q ∨ ∃ (c' : Cfg) (key : Bytes) (g : Bool → Prog Data) (t : Int), q = deleteExpiredKey c' key >>= g ∧ Lone (g false) ∧
      H ≤ t ∧ p = halfCheck c' key t >>= g)

theorem within_lone {E L : Entries} {q p' : Prog Data} {h : Held} (hl : Lone q) (hw : Within env E q h L p') :
    p'.Sole h ∧ Partway env E q L p' := by
  induction hw with
  | @enter o f r hp ho =>
    cases hl with
    | ret a => cases hp
    | fault e => cases hp
    | now g _ => cases hp; exact absurd ho id
    | check c' key g _ => rw [check_eq] at hp; cases hp; exact absurd ho id
    | @sect o' g ho' hs =>
      cases hp
      refine ⟨hs r, Partway.one ?_⟩
      cases o <;> first | exact absurd ho id | exact rfl
  | @next h L L' o f r _ hne hd ih => exact ⟨ih.1.2 r, .step ih.2 hd⟩

theorem within_ret {E L : Entries} {a : Data} {h : Held} {p' : Prog Data} (hw : Within env E (.ret a) h L p') : False := by
  induction hw with
  | enter r hp ho => cases hp
  | next _ _ _ ih => exact ih

theorem within_now {E L : Entries} {g : Int → Prog Data} {h : Held} {p' : Prog Data} (hw : Within env E (.op .now g) h L p') : False := by
  induction hw with
  | enter r hp ho => cases hp; exact ho
  | next _ _ _ ih => exact ih

theorem alone_fault {E L : Entries} {f : Fault} {a : Data} (h : Alone env E (.fault f) a L) : False := by
  rcases partway_front h with ⟨he, _⟩ | ⟨o, f, r, E1, hp, _⟩
  · cases he
  · cases hp

theorem undecided_start {p : Prog Data} (hl : Lone p) : (∃ a, p = .ret a) ∨ Undecided env H p p := by
  cases p with
  | ret a => exact .inl ⟨a, rfl⟩
  | fault e => exact .inr ⟨_, hl, nofun, .refl, .inl rfl⟩
  | op o f => exact .inr ⟨_, hl, nofun, .refl, .inl rfl⟩

/-- The critical section decides. -/
theorem undecided_within {p0 p p' : Prog Data} {E L : Entries} {h : Held} (hu : Undecided env H p0 p) (hlast : Lasting env H p0)
    (hE : E.lastsTo H) (hw : Within env E p h L p') : L.lastsTo H ∧ (h = [] → ∃ d, p' = .ret d ∧ Alone env E p0 d L) := by
  obtain ⟨q, hl, hq, hlead, rfl | ⟨c', key, g, t, rfl, hg, ht, rfl⟩⟩ := hu
  · obtain ⟨hs, hpw⟩ := within_lone hl hw
    refine ⟨hlast E L p' hE (hlead E L p' hE hpw), ?_⟩
    rintro rfl
    cases p' with
    | ret d => exact ⟨d, rfl, hlead E L _ hE hpw⟩
    | fault e => exact absurd rfl hs
    | op o f' => exact absurd rfl hs.1
  · obtain ⟨g', hg', _⟩ := half_eq c' key t g
    rw [hg'] at hw
    exact (within_now hw).elim

/-- Operations before the section bring the command nearer to it, or decide by themselves. -/
theorem undecided_outside (hclk : ∀ i, env.clock i ≤ H) {p0 : Prog Data} {L : Entries} {o : Op} {f : o.Ret → Prog Data} {r : o.Ret}
    (hu : Undecided env H p0 (.op o f)) (hn : o.noLock) (hL : L.lastsTo H) (hd : Does env L o r L) :
    Undecided env H p0 (f r) ∨ ∃ d, f r = .ret d ∧ ∀ E : Entries, E.lastsTo H → Alone env E p0 d E := by
  have fin : ∀ q', Lone q' → Leads env H p0 q' → f r = q' →
      Undecided env H p0 (f r) ∨ ∃ d, f r = .ret d ∧ ∀ E : Entries, E.lastsTo H → Alone env E p0 d E := by
    rintro q' hl' hlead' he
    cases q' with
    | ret d => exact .inr ⟨d, he, fun E hE => hlead' E E _ hE .refl⟩
    | fault e => exact .inl ⟨_, hl', nofun, hlead', .inl he⟩
    | op o' g => exact .inl ⟨_, hl', nofun, hlead', .inl he⟩
  obtain ⟨q, hl, hq, hlead, hp | ⟨c', key, g, t, rfl, hg, ht, hp⟩⟩ := hu
  · cases hl with
    | ret a => cases hp
    | fault e => cases hp
    | now g hg =>
      cases hp
      exact fin (g r) (hg r) (hlead.trans (now_leads hd.1)) rfl
    | check c' key g hg =>
      rw [check_eq] at hp
      cases hp
      cases r with
      | none => exact fin (g false) hg (hlead.trans (check_leads hclk c' key g)) rfl
      | some t =>
        exact .inl ⟨_, .check c' key g hg, hq, hlead, .inr ⟨c', key, g, t, rfl, hg, hL key t hd.1.symm, rfl⟩⟩
    | @sect o' g ho hs =>
      cases hp
      cases o <;> first | exact absurd ho id | exact absurd hn id
  · obtain ⟨g', hg', hn'⟩ := half_eq c' key t g
    rw [hg'] at hp
    cases hp
    obtain ⟨⟨i, hi⟩, _⟩ := hd
    have hr : g' r = g false := hn' r (by rw [hi]; exact Int.le_trans (hclk i) ht)
    exact fin (g false) hg (hlead.trans (check_leads hclk c' key g)) hr

end

/-! ### A server in between: a command is executed whole, on a database that has been current since its call -/

/-- What a connection is doing; `seen` are the databases that have been current since the call. -/
inductive Seat where
  | idle
  | called (cmd : List Slice) (seen : List Nat)
  | answered (d : Data)

def Seat.see (d : Nat) : Seat → Seat
  | .called cmd seen => .called cmd (d :: seen)
  | x => x

structure Board where
  dbs : Nat → Entries
  n : Nat
  cur : Nat
  seats : List Seat

/-- `p` is the program of the command `cmd`, which is not KEYS. -/
def IsProg (c : Cfg) (cmd : List Slice) (p : Prog Data) : Prop :=
  ∃ (n : Slice) (args : List Slice) (f : List Slice → Prog Data), cmd = n :: args ∧ toLower (str n) ≠ b!"select" ∧
    (cmdTable c).lookup (toLower (str n)) = some f ∧ p = f cmd ∧ toLower (str n) ≠ b!"keys"

def putDb (dbs : Nat → Entries) (d : Nat) (E : Entries) : Nat → Entries := fun e => if e = d then E else dbs e

/-- With `strict` a command is executed on the database that is current at the moment. -/
inductive BoardStep (c : Cfg) (env : Env) (strict : Prop) : Option Ev → Board → Board → Prop
  | call {b : Board} {i : Nat} {cmd : List Slice} : b.seats[i]? = some .idle →
      BoardStep c env strict (some (.call i cmd)) b { b with seats := b.seats.set i (.called cmd [b.cur]) }
  | unknown {b : Board} {i : Nat} {cmd : List Slice} {seen : List Nat} {d : Data} : b.seats[i]? = some (.called cmd seen) →
      dispatch c cmd = .reply d → BoardStep c env strict none b { b with seats := b.seats.set i (.answered d) }
  | select {b : Board} {i : Nat} {cmd cmd' : List Slice} {seen : List Nat} : b.seats[i]? = some (.called cmd seen) →
      dispatch c cmd = .select cmd' →
      BoardStep c env strict none b { b with
        cur := (selectCmd b.n b.cur cmd').1
        seats := (b.seats.map (Seat.see (selectCmd b.n b.cur cmd').1)).set i (.answered (selectCmd b.n b.cur cmd').2) }
  | exec {b : Board} {i d : Nat} {cmd : List Slice} {seen : List Nat} {p : Prog Data} {r : Data} {E : Entries} :
      b.seats[i]? = some (.called cmd seen) → d ∈ seen → (strict → d = b.cur) → IsProg c cmd p → Alone env (b.dbs d) p r E →
      BoardStep c env strict none b { b with dbs := putDb b.dbs d E, seats := b.seats.set i (.answered r) }
  | answer {b : Board} {i : Nat} {d : Data} : b.seats[i]? = some (.answered d) →
      BoardStep c env strict (some (.answer i d)) b { b with seats := b.seats.set i .idle }

inductive BoardRun (c : Cfg) (env : Env) (strict : Prop) (b : Board) : List Ev → Board → Prop
  | refl : BoardRun c env strict b [] b
  | step {es : List Ev} {b1 b2 : Board} {e : Option Ev} : BoardRun c env strict b es b1 → BoardStep c env strict e b1 b2 →
      BoardRun c env strict b (es ++ e.toList) b2

/-! ### The hub and the board -/

/-- What connection does on database `d`. -/
def Call.on (d : Nat) : Call → Prog Data
  | .running e p => if e = d then p else .ret rOK
  | _ => .ret rOK

/-- What happens on database `d`. -/
def Hub.proj (g : Hub) (d : Nat) (db : Db) : Shared Data := ⟨⟨db, g.tick⟩, g.locks d, g.calls.map (Call.on d)⟩

/-- Before its outcome is decided a command has not been executed on the board, afterwards it has. -/
def Decided (c : Cfg) (env : Env) (H : Int) (d : Nat) (s : Seat) (q : Prog Data) : Prop :=
  (∃ a, s = .answered a ∧ q = .ret a) ∨
  ∃ cmd seen p0, s = .called cmd seen ∧ d ∈ seen ∧ (IsProg c cmd p0 ∨ ∃ f, p0 = .fault f) ∧ Lasting env H p0 ∧ Undecided env H p0 q

/-- The correspondence for one database. -/
def View (c : Cfg) (env : Env) (H : Int) (g : Hub) (b : Board) (d : Nat) (db : Db) : Prop :=
  ∃ hs gp, Owns c (g.proj d db) hs ∧ Sim c env (g.proj d db) hs (b.dbs d) gp ∧ (b.dbs d).lastsTo H ∧
    ∀ (i : Nat) (p : Prog Data), g.calls[i]? = some (.running d p) → ∃ q s, gp[i]? = some q ∧ b.seats[i]? = some s ∧ Decided c env H d s q

section
variable {c : Cfg} {env : Env} {H : Int}

theorem owns_replace {st st' : St} {locks : Nat → RW} {ths : List (Prog Data)} {hs : Nat → Held} {i : Nat} {a : Data} {p : Prog Data}
    (ho : Owns c ⟨st, locks, ths⟩ hs) (hi : ths[i]? = some (.ret a)) (hp : p.Tidy c []) :
    Owns c ⟨st', locks, ths.set i p⟩ hs := by
  have hnil : hs i = [] := ho.disc i _ hi
  have hu : updHeld hs i [] = hs := by
    funext u; by_cases hu : u = i
    · subst hu; simp [hnil]
    · exact updHeld_ne _ _ hu
  have := owns_set ho hi (h' := []) hp
  rw [hu] at this
  refine ⟨this.1, this.2, ho.order, ho.writer, ho.reader, ho.nodup, ho.excl, fun p t h => ?_⟩
  obtain ⟨h1, k, hk⟩ := ho.pend p t h
  refine ⟨h1, k, ?_⟩
  have hti : t ≠ i := by rintro rfl; rw [hi] at hk; cases hk
  exact (thread_other hti).trans hk

theorem sim_replace {st st' : St} {locks : Nat → RW} {ths gp : List (Prog Data)} {hs : Nat → Held} {G : Entries} {i : Nat} {a : Data} {p : Prog Data}
    (ho : Owns c ⟨st, locks, ths⟩ hs) (hsim : Sim c env ⟨st, locks, ths⟩ hs G gp) (hst : entries st' = entries st)
    (hi : ths[i]? = some (.ret a)) (hp : p.Cut [] false) :
    Sim c env ⟨st', locks, ths.set i p⟩ hs G (gp.set i p) := by
  have hnil : hs i = [] := ho.disc i _ hi
  obtain ⟨q, hq, _⟩ := hsim.mode i _ hi
  refine ⟨by simpa using hsim.len, fun t p' ht => ?_, fun k hk => ?_⟩
  · by_cases hti : t = i
    · subst hti
      rw [thread_self hi] at ht
      cases ht
      exact ⟨p, thread_self hq, .inl ⟨hnil, rfl, hp⟩⟩
    · rw [thread_other hti] at ht
      obtain ⟨q', h1, h2⟩ := hsim.mode t p' ht
      refine ⟨q', by rw [thread_other hti]; exact h1, ?_⟩
      show Mode c env G (entries st') _ _ _
      rw [hst]; exact h2
  · show entries st' k = _
    rw [hst]; exact hsim.rest k hk

theorem proj_thread {g : Hub} {d : Nat} {db : Db} {i : Nat} {x : Call} (h : g.calls[i]? = some x) :
    (g.proj d db).threads[i]? = some (x.on d) := by
  simp [Hub.proj, h]

/-- A connection goes on without touching database `d`. -/
theorem view_set {g g' : Hub} {b b' : Board} {d : Nat} {db : Db} {i : Nat} {x0 x : Call} {a : Data} (hv : View c env H g b d db)
    (hl : g'.locks d = g.locks d) (hc : g'.calls = g.calls.set i x) (h0 : g.calls[i]? = some x0) (h1 : x0.on d = .ret a)
    (h2 : (x.on d).Tidy c []) (h3 : (x.on d).Cut [] false) (hb : b'.dbs d = b.dbs d)
    (hseat : ∀ (j : Nat) (p : Prog Data), j ≠ i → g.calls[j]? = some (.running d p) → ∀ s, b.seats[j]? = some s →
      ∃ s', b'.seats[j]? = some s' ∧ ∀ q, Decided c env H d s q → Decided c env H d s' q)
    (hi : ∀ p, x = .running d p → ∃ s, b'.seats[i]? = some s ∧ Decided c env H d s p) : View c env H g' b' d db := by
  obtain ⟨hs, gp, ho, hsim, hlast, hdec⟩ := hv
  have hti := (proj_thread (d := d) (db := db) h0).trans (congrArg some h1)
  have hproj : g'.proj d db = ⟨⟨db, g'.tick⟩, g.locks d, (g.calls.map (Call.on d)).set i (x.on d)⟩ := by
    simp [Hub.proj, hl, hc, List.map_set]
  refine ⟨hs, gp.set i (x.on d), ?_, ?_, by rw [hb]; exact hlast, ?_⟩
  · rw [hproj]; exact owns_replace ho hti h2
  · rw [hproj, hb]; exact sim_replace ho hsim rfl hti h3
  · intro j p hj
    rw [hc] at hj
    by_cases hji : j = i
    · subst hji
      have hlt : j < g.calls.length := (List.getElem?_eq_some_iff.1 h0).1
      rw [List.getElem?_set] at hj
      simp [hlt] at hj
      subst hj
      obtain ⟨s, hs1, hs2⟩ := hi p rfl
      obtain ⟨q, hq, _⟩ := hsim.mode j _ hti
      refine ⟨_, s, thread_self hq, hs1, ?_⟩
      simpa [Call.on] using hs2
    · rw [List.getElem?_set, if_neg (Ne.symm hji)] at hj
      obtain ⟨q, s, h4, h5, h6⟩ := hdec j p hj
      obtain ⟨s', h7, h8⟩ := hseat j p hji hj s h5
      exact ⟨q, s', by rw [thread_other hji]; exact h4, h7, h8 q h6⟩

/-- The board after the command of connection `t` has been executed on database `d`. -/
def Board.after (b : Board) (d t : Nat) (a : Data) (E : Entries) : Board :=
  { b with dbs := putDb b.dbs d E, seats := b.seats.set t (.answered a) }

/-- The command of connection `t` can be executed on database `d`. -/
def Due (c : Cfg) (env : Env) (b : Board) (d t : Nat) (a : Data) (E : Entries) : Prop :=
  ∃ cmd seen p0, b.seats[t]? = some (.called cmd seen) ∧ d ∈ seen ∧ IsProg c cmd p0 ∧ Alone env (b.dbs d) p0 a E

theorem proj_idle {g : Hub} {b : Board} {d : Nat} {db : Db} {hs : Nat → Held} {gp : List (Prog Data)} {t : Nat} {q : Prog Data}
    (ho : Owns c (g.proj d db) hs) (hsim : Sim c env (g.proj d db) hs (b.dbs d) gp) (hq : gp[t]? = some q) :
    (∃ a, q = .ret a) ∨ ∃ p, g.calls[t]? = some (.running d p) := by
  have hlt : t < (g.proj d db).threads.length := by rw [← hsim.len]; exact (List.getElem?_eq_some_iff.1 hq).1
  obtain ⟨x, hx⟩ : ∃ x, g.calls[t]? = some x := ⟨_, List.getElem?_eq_getElem (by simpa [Hub.proj] using hlt)⟩
  have hon := proj_thread (d := d) (db := db) hx
  have idle : x.on d = .ret rOK → ∃ a, q = .ret a := by
    intro h1
    rw [h1] at hon
    obtain ⟨q', h2, h3⟩ := hsim.mode t _ hon
    rw [hq] at h2
    cases h2
    have hnil : hs t = [] := ho.disc t _ hon
    rcases h3 with ⟨_, rfl, _⟩ | ⟨h4, _⟩ | ⟨h4, _⟩
    · exact ⟨_, rfl⟩
    · exact absurd hnil h4
    · exact absurd hnil h4
  cases x with
  | running e p =>
    by_cases he : e = d
    · subst he; exact .inr ⟨p, hx⟩
    · exact .inl (idle (if_neg he))
  | idle => exact .inl (idle rfl)
  | called cmd => exact .inl (idle rfl)
  | answered d => exact .inl (idle rfl)

/-- An operation on database `d`. -/
theorem view_op (hclk : ∀ i, env.clock i ≤ H) {g g' : Hub} {b : Board} {d i : Nat} {db db' : Db} (hv : View c env H g b d db)
    (hrun : ∀ (j : Nat) (p : Prog Data), g'.calls[j]? = some (.running d p) → ∃ p', g.calls[j]? = some (.running d p'))
    (hs : Step env i (g.proj d db) (g'.proj d db')) :
    View c env H g' b d db' ∨ ∃ t a E, Due c env b d t a E ∧ (∃ p, g.calls[t]? = some (.running d p)) ∧ View c env H g' (b.after d t a E) d db' := by
  obtain ⟨hs0, gp, ho, hsim, hlast, hdec⟩ := hv
  obtain ⟨hs', G', gp', ho', hsim', hcase⟩ := sim_step ho hsim hs
  have find : ∀ (t : Nat) (q : Prog Data), gp[t]? = some q → (∀ a, q ≠ .ret a) →
      (∃ p, g.calls[t]? = some (.running d p)) ∧ ∃ cmd seen p0, b.seats[t]? = some (.called cmd seen) ∧ d ∈ seen ∧
        (IsProg c cmd p0 ∨ ∃ f, p0 = .fault f) ∧ Lasting env H p0 ∧ Undecided env H p0 q := by
    intro t q hq hne
    rcases proj_idle ho hsim hq with ⟨a, rfl⟩ | ⟨p, hp⟩
    · exact absurd rfl (hne a)
    · refine ⟨⟨p, hp⟩, ?_⟩
      obtain ⟨q', s, h1, h2, h3⟩ := hdec t p hp
      rw [hq] at h1
      cases h1
      rcases h3 with ⟨a, _, rfl⟩ | ⟨cmd, seen, p0, rfl, h4, h5, h6, h7⟩
      · exact absurd rfl (hne a)
      · exact ⟨cmd, seen, p0, h2, h4, h5, h6, h7⟩
  have stay : ∀ (t : Nat) (q : Prog Data), G' = b.dbs d → gp' = gp.set t q →
      (∀ s, b.seats[t]? = some s → Decided c env H d s q) → View c env H g' b d db' := by
    rintro t q rfl rfl hq
    refine ⟨hs', _, ho', hsim', hlast, fun j p hj => ?_⟩
    obtain ⟨p', hp'⟩ := hrun j p hj
    obtain ⟨q', s, h1, h2, h3⟩ := hdec j p' hp'
    by_cases hjt : j = t
    · subst hjt; exact ⟨q, s, thread_self h1, h2, hq s h2⟩
    · exact ⟨q', s, by rw [thread_other hjt]; exact h1, h2, h3⟩
  have move : ∀ (t : Nat) (a : Data), gp' = gp.set t (.ret a) → G'.lastsTo H → View c env H g' (b.after d t a G') d db' := by
    rintro t a rfl hl
    have hdb : (b.after d t a G').dbs d = G' := by simp [Board.after, putDb]
    refine ⟨hs', _, ho', by rw [hdb]; exact hsim', by rw [hdb]; exact hl, fun j p hj => ?_⟩
    obtain ⟨p', hp'⟩ := hrun j p hj
    obtain ⟨q', s, h1, h2, h3⟩ := hdec j p' hp'
    have hlt : j < b.seats.length := (List.getElem?_eq_some_iff.1 h2).1
    by_cases hjt : j = t
    · subst hjt; exact ⟨_, .answered a, thread_self h1, by simp [Board.after, hlt], .inl ⟨a, rfl, rfl⟩⟩
    · exact ⟨q', s, by rw [thread_other hjt]; exact h1, by simp only [Board.after]; rw [List.getElem?_set, if_neg (Ne.symm hjt)]; exact h2, h3⟩
  have fits : ∀ {cmd : List Slice} {p0 : Prog Data} {a : Data} {E L : Entries}, (IsProg c cmd p0 ∨ ∃ f, p0 = .fault f) → Alone env E p0 a L → IsProg c cmd p0 := by
    rintro cmd p0 a E L (h | ⟨f, rfl⟩) ha
    · exact h
    · exact (alone_fault ha).elim
  have outside : ∀ (t : Nat) (o : Op) (f : o.Ret → Prog Data) (r : o.Ret) (L : Entries), gp[t]? = some (.op o f) → o.noLock → L.lastsTo H →
      Does env L o r L → G' = b.dbs d → gp' = gp.set t (f r) →
      View c env H g' b d db' ∨ ∃ t a E, Due c env b d t a E ∧ (∃ p, g.calls[t]? = some (.running d p)) ∧ View c env H g' (b.after d t a E) d db' := by
    intro t o f r L hq hn hL hd hG hgp
    obtain ⟨hrt, cmd, seen, p0, h1, h2, h3, h4, h5⟩ := find t _ hq nofun
    rcases undecided_outside hclk h5 hn hL hd with h6 | ⟨a, h6, h7⟩
    · refine .inl (stay t (f r) hG hgp fun s hs => ?_)
      rw [h1] at hs
      cases hs
      exact .inr ⟨cmd, seen, p0, rfl, h2, h3, h4, h6⟩
    · have ha := h7 _ hlast
      refine .inr ⟨t, a, G', ⟨cmd, seen, p0, h1, h2, fits h3 ha, by rw [hG]; exact ha⟩, hrt, move t a (by rw [hgp, h6]) (by rw [hG]; exact hlast)⟩
  rcases hcase with hcase | ⟨rfl, rfl⟩
  · cases hcase with
    | @whole _ _ t q q' hq hw =>
      obtain ⟨hrt, cmd, seen, p0, h1, h2, h3, h4, h5⟩ := find t _ hq fun a ha => by rw [ha] at hw; exact within_ret hw
      obtain ⟨h6, h7⟩ := undecided_within h5 h4 hlast hw
      obtain ⟨a, rfl, ha⟩ := h7 rfl
      exact .inr ⟨t, a, G', ⟨cmd, seen, p0, h1, h2, fits h3 ha, ha⟩, hrt, move t a rfl h6⟩
    | outside hq hn hd => exact outside _ _ _ _ _ hq hn hlast hd rfl rfl
    | @peek L _ t u o f r h qu qu' hq hn hu hne hw hh hd =>
      obtain ⟨_, cmd, seen, p0, h1, h2, h3, h4, h5⟩ := find u _ hu fun a ha => by rw [ha] at hw; exact within_ret hw
      exact outside _ _ _ _ L hq hn (undecided_within h5 h4 hlast hw).1 hd rfl rfl
  · refine .inl ⟨hs', gp', ho', hsim', hlast, fun j p hj => ?_⟩
    obtain ⟨p', hp'⟩ := hrun j p hj
    exact hdec j p' hp'

/-- The hub after an operation. -/
def Hub.ran (g : Hub) (d i : Nat) (st' : St) (locks' : Nat → RW) (p' : Prog Data) : Hub :=
  { g with dbs := g.dbs.set d st'.db, tick := st'.tick, locks := fun e => if e = d then locks' else g.locks e }.set i (.running d p')

/-- What a connection does on the hub and on the board. -/
def Sits (c : Cfg) (env : Env) (H : Int) (cur : Nat) : Call → Seat → Prop
  | .idle, s => s = .idle
  | .called cmd, s => ∃ seen, s = .called cmd seen ∧ cur ∈ seen ∧ Tame c env H cmd
  | .running _ _, _ => True
  | .answered a, s => s = .answered a

/-- The correspondence. -/
structure Rel (c : Cfg) (env : Env) (H : Int) (g : Hub) (b : Board) : Prop where
  n : b.n = g.dbs.length
  cur : b.cur = g.cur
  lt : g.cur < g.dbs.length
  run : ∀ (i d : Nat) (p : Prog Data), g.calls[i]? = some (.running d p) → d < g.dbs.length
  view : ∀ (d : Nat) (db : Db), g.dbs[d]? = some db → View c env H g b d db
  seat : ∀ (i : Nat) (x : Call), g.calls[i]? = some x → ∃ s, b.seats[i]? = some s ∧ Sits c env H g.cur x s

theorem selectCmd_lt {n cur : Nat} (h : cur < n) (cmd : List Slice) : (selectCmd n cur cmd).1 < n := by
  unfold selectCmd
  repeat' split
  all_goals first | exact h | skip
  rename_i h1
  simp only [not_or, Int.not_lt, ge_iff_le, Int.not_le] at h1
  simp only
  omega

theorem ret_tidy (a : Data) : (Prog.ret a).Tidy c [] := rfl
theorem ret_cut (a : Data) : (Prog.ret a).Cut [] false := ⟨rfl, rfl⟩

theorem getElem?_set_ne' {α : Type} {l : List α} {i j : Nat} {x : α} (h : j ≠ i) : (l.set i x)[j]? = l[j]? := by
  rw [List.getElem?_set, if_neg (Ne.symm h)]
theorem getElem?_set_eq' {α : Type} {l : List α} {i : Nat} {x y : α} (h : l[i]? = some y) : (l.set i x)[i]? = some x := by
  have : i < l.length := (List.getElem?_eq_some_iff.1 h).1
  simp [this]

/-- The connections other than `i` stay as they are. -/
theorem seat_set {g : Hub} {b : Board} {i : Nat} {x x0 : Call} {s : Seat} {cur' : Nat} (hr : Rel c env H g b) (h0 : g.calls[i]? = some x0) (hs : Sits c env H cur' x s)
    (hcur : g.cur = cur') :
    ∀ (j : Nat) (y : Call), (g.calls.set i x)[j]? = some y → ∃ s', (b.seats.set i s)[j]? = some s' ∧ Sits c env H cur' y s' := by
  subst hcur
  intro j y hj
  by_cases hji : j = i
  · subst hji
    rw [getElem?_set_eq' h0] at hj
    cases hj
    obtain ⟨s0, h1, _⟩ := hr.seat j x0 h0
    exact ⟨s, getElem?_set_eq' h1, hs⟩
  · rw [getElem?_set_ne' hji] at hj ⊢
    exact hr.seat j y hj

theorem isProg_of {cmd : List Slice} {p : Prog Data} (h : dispatch c cmd = .exec p) (ht : Tame c env H cmd) :
    IsProg c cmd p ∧ Lasting env H p ∧ Lone p ∧ p.Tidy c [] ∧ p.Cut [] false := by
  unfold dispatch at h
  cases cmd with
  | nil => cases h
  | cons n args =>
    simp only at h
    split at h
    · cases h
    next hsel =>
    split at h
    next f hf =>
      cases h
      obtain ⟨h1, h2⟩ := ht n args f rfl hf
      exact ⟨⟨n, args, f, rfl, hsel, hf, rfl, keys_out h1⟩, h2, table_lone c _ (lookup_table hf) n args h1,
        table_tidy (lookup_table hf) n args, table_cut c _ (lookup_table hf) _⟩
    · cases h

theorem rel_step (hclk : ∀ i, env.clock i ≤ H) {g g' : Hub} {b b0 : Board} {e : Option Ev} {es : List Ev}
    (hr : Rel c env H g b) (hb : BoardRun c env False b0 es b) (hs : HubStep c env e g g')
    (ht : ∀ i cmd, e = some (.call i cmd) → Tame c env H cmd) :
    ∃ b', BoardRun c env False b0 (es ++ e.toList) b' ∧ Rel c env H g' b' := by
  have others : ∀ (b' : Board) (i d : Nat), (∀ j, j ≠ i → b'.seats[j]? = b.seats[j]?) → ∀ (j : Nat) (p : Prog Data), j ≠ i → g.calls[j]? = some (.running d p) →
      ∀ s, b.seats[j]? = some s → ∃ s', b'.seats[j]? = some s' ∧ ∀ q, Decided c env H d s q → Decided c env H d s' q :=
    fun b' i d h j p hj _ s hs => ⟨s, (h j hj).trans hs, fun _ h => h⟩
  have runs : ∀ {i : Nat} (x : Call), (∀ d p, x = .running d p → d < g.dbs.length) → ∀ (j d : Nat) (p : Prog Data), (g.calls.set i x)[j]? = some (.running d p) → d < g.dbs.length := by
    intro i x hx j d p hj
    by_cases hji : j = i
    · subst hji
      cases h0 : g.calls[j]? with
      | none => rw [List.getElem?_set] at hj; simp at hj; exact hx _ _ hj.2
      | some y => rw [getElem?_set_eq' h0] at hj; cases hj; exact hx _ _ rfl
    · rw [getElem?_set_ne' hji] at hj; exact hr.run j d p hj
  cases hs with
  | @call _ i cmd hc hi =>
    obtain ⟨s, h1, rfl⟩ := hr.seat i _ hi
    refine ⟨_, .step hb (.call h1), hr.n, hr.cur, hr.lt, runs _ nofun, fun d db hdb => ?_, ?_⟩
    · exact view_set (x := .called cmd) (hr.view d db hdb) rfl rfl hi rfl (ret_tidy _) (ret_cut _) rfl (others _ _ _ fun j hj => getElem?_set_ne' hj) nofun
    · exact seat_set hr hi (x := .called cmd) ⟨_, rfl, by simp [hr.cur, Hub.set], ht i cmd rfl⟩ rfl
  | @unknown _ i cmd d hc hi hd =>
    obtain ⟨s, h1, seen, rfl, h2, h3⟩ := hr.seat i _ hi
    refine ⟨_, .step hb (.unknown h1 hd), hr.n, hr.cur, hr.lt, runs _ nofun, fun e db hdb => ?_, ?_⟩
    · exact view_set (x := .answered d) (hr.view e db hdb) rfl rfl hi rfl (ret_tidy _) (ret_cut _) rfl (others _ _ _ fun j hj => getElem?_set_ne' hj) nofun
    · exact seat_set hr hi (x := .answered d) rfl rfl
  | @select _ i cmd cmd' hc hi hd =>
    obtain ⟨s, h1, seen, rfl, h2, h3⟩ := hr.seat i _ hi
    refine ⟨_, .step hb (.select h1 hd), hr.n, by simp [Hub.set, hr.n, hr.cur], selectCmd_lt hr.lt _, runs _ nofun, fun e db hdb => ?_, ?_⟩
    · refine view_set (x := .answered (selectCmd g.dbs.length g.cur cmd').2) (hr.view e db hdb) rfl rfl hi rfl (ret_tidy _) (ret_cut _) rfl (fun j p hj hp s hs => ?_) nofun
      refine ⟨s.see (selectCmd b.n b.cur cmd').1, by rw [getElem?_set_ne' hj]; simp [hs], fun q hq => ?_⟩
      rcases hq with ⟨a, rfl, rfl⟩ | ⟨cmd1, seen1, p0, rfl, h4, h5⟩
      · exact .inl ⟨a, rfl, rfl⟩
      · exact .inr ⟨cmd1, _, p0, rfl, List.mem_cons_of_mem _ h4, h5⟩
    · intro j y hj
      simp only [Hub.set] at hj ⊢
      by_cases hji : j = i
      · subst hji
        rw [getElem?_set_eq' hi] at hj
        cases hj
        refine ⟨_, getElem?_set_eq' (y := Seat.see (selectCmd b.n b.cur cmd').1 (.called cmd seen)) (by simp [h1]), ?_⟩
        simp [Sits, hr.n, hr.cur]
      · rw [getElem?_set_ne' hji] at hj ⊢
        obtain ⟨s, h4, h5⟩ := hr.seat j y hj
        refine ⟨s.see (selectCmd b.n b.cur cmd').1, by simp [h4], ?_⟩
        cases y with
        | idle => cases h5; rfl
        | called cmd1 =>
          obtain ⟨seen1, rfl, h6, h7⟩ := h5
          exact ⟨_, rfl, by simp [hr.n, hr.cur], h7⟩
        | running _ _ => trivial
        | answered a => cases h5; rfl
  | @begin _ i cmd p hc hi hd =>
    obtain ⟨s, h1, seen, rfl, h2, h3⟩ := hr.seat i _ hi
    obtain ⟨hfit, hlast, hlone, htidy, hcut⟩ := isProg_of hd h3
    have other : ∀ (b' : Board) (e : Nat) (db : Db), g.dbs[e]? = some db → (∀ j, j ≠ i → b'.seats[j]? = b.seats[j]?) → b'.dbs e = b.dbs e →
        (∃ s, b'.seats[i]? = some s ∧ Decided c env H g.cur s p) → View c env H (g.set i (.running g.cur p)) b' e db := by
      intro b' e db hdb hseat hdbs hdec
      by_cases he : g.cur = e
      · refine view_set (x := .running g.cur p) (hr.view e db hdb) rfl rfl hi rfl ?_ ?_ hdbs (others _ _ _ hseat) ?_
        · simp only [Call.on]; rw [if_pos he]; exact htidy
        · simp only [Call.on]; rw [if_pos he]; exact hcut
        · intro p' hp'; cases hp'; exact hdec
      · refine view_set (x := .running g.cur p) (hr.view e db hdb) rfl rfl hi rfl ?_ ?_ hdbs (others _ _ _ hseat) ?_
        · simp only [Call.on]; rw [if_neg he]; exact ret_tidy _
        · simp only [Call.on]; rw [if_neg he]; exact ret_cut _
        · intro p' hp'; cases hp'; exact absurd rfl he
    rcases undecided_start (env := env) (H := H) hlone with ⟨a, rfl⟩ | hu
    · refine ⟨_, .step hb (.exec h1 h2 False.elim hfit (r := a) (E := b.dbs g.cur) .refl), hr.n, hr.cur, hr.lt, runs _ (fun _ _ h => by cases h; exact hr.lt), fun e db hdb => ?_, ?_⟩
      · refine other _ e db hdb (fun j hj => getElem?_set_ne' hj) ?_ ⟨_, getElem?_set_eq' h1, .inl ⟨a, rfl, rfl⟩⟩
        simp only [putDb]; split
        · next he => rw [he]
        · rfl
      · exact seat_set hr hi (x := .running g.cur (.ret a)) trivial rfl
    · refine ⟨b, by simpa using hb, hr.n, hr.cur, hr.lt, runs _ (fun _ _ h => by cases h; exact hr.lt), fun e db hdb => ?_, ?_⟩
      · exact other _ e db hdb (fun _ _ => rfl) rfl ⟨_, h1, .inr ⟨cmd, seen, p, rfl, h2, .inl hfit, hlast, hu⟩⟩
      · intro j y hj
        simp only [Hub.set] at hj ⊢
        by_cases hji : j = i
        · subst hji
          rw [getElem?_set_eq' hi] at hj
          cases hj
          exact ⟨_, h1, trivial⟩
        · rw [getElem?_set_ne' hji] at hj
          exact hr.seat j y hj
  | @panic _ i cmd f hc hi hd =>
    obtain ⟨s, h1, seen, rfl, h2, h3⟩ := hr.seat i _ hi
    refine ⟨b, by simpa using hb, hr.n, hr.cur, hr.lt, runs _ (fun _ _ h => by cases h; exact hr.lt), fun e db hdb => ?_, ?_⟩
    · by_cases he : g.cur = e
      · refine view_set (x := .running g.cur (.fault f)) (hr.view e db hdb) rfl rfl hi rfl ?_ ?_ rfl (others _ _ _ fun _ _ => rfl) ?_
        · simp only [Call.on]; rw [if_pos he]; trivial
        · simp only [Call.on]; rw [if_pos he]; exact cut_fault
        · intro p' hp'; cases hp'
          have hlast : Lasting env H (.fault f) := late_lasting late_fault
          refine ⟨_, h1, .inr ⟨cmd, seen, .fault f, rfl, h2, .inr ⟨f, rfl⟩, hlast, ?_⟩⟩
          exact ⟨_, .fault f, nofun, .refl, .inl rfl⟩
      · refine view_set (x := .running g.cur (.fault f)) (hr.view e db hdb) rfl rfl hi rfl ?_ ?_ rfl (others _ _ _ fun _ _ => rfl) ?_
        · simp only [Call.on]; rw [if_neg he]; exact ret_tidy _
        · simp only [Call.on]; rw [if_neg he]; exact ret_cut _
        · intro p' hp'; cases hp'; exact absurd rfl he
    · intro j y hj
      simp only [Hub.set] at hj ⊢
      by_cases hji : j = i
      · subst hji
        rw [getElem?_set_eq' hi] at hj
        cases hj
        exact ⟨_, h1, trivial⟩
      · rw [getElem?_set_ne' hji] at hj
        exact hr.seat j y hj
  | @op _ i d p p' db st' locks' hc hi hdb hstep =>
    show ∃ b', _ ∧ Rel c env H (g.ran d i st' locks' p') b'
    have hproj : Step env i (g.proj d db) (Hub.proj (g.ran d i st' locks' p') d st'.db) := by
      refine ⟨?_, p, st', locks', p', ?_, hstep, ?_⟩
      · rintro ⟨q, hq, f, rfl, hf⟩
        obtain ⟨x, hx, he⟩ := List.mem_map.1 hq
        cases x with
        | running e p =>
          simp only [Call.on] at he
          split at he
          · next h => subst h; subst he; exact hc ⟨_, hx, _, _, rfl, hf⟩
          · cases he
        | idle => cases he
        | called cmd => cases he
        | answered d => cases he
      · rw [proj_thread hi]; simp [Call.on]
      · simp [Hub.proj, Hub.ran, Hub.set, List.map_set, Call.on]
    have hseat : ∀ (b' : Board), (∀ (j : Nat) (s : Seat), b.seats[j]? = some s → ∃ s', b'.seats[j]? = some s' ∧ ((¬ ∃ p, g.calls[j]? = some (.running d p)) → s' = s)) →
        ∀ (j : Nat) (y : Call), (g.calls.set i (.running d p'))[j]? = some y → ∃ s, b'.seats[j]? = some s ∧ Sits c env H g.cur y s := by
      intro b' hb' j y hj
      by_cases hji : j = i
      · subst hji
        rw [getElem?_set_eq' hi] at hj
        cases hj
        obtain ⟨s, h1, _⟩ := hr.seat j _ hi
        obtain ⟨s', h2, _⟩ := hb' j s h1
        exact ⟨s', h2, trivial⟩
      · rw [getElem?_set_ne' hji] at hj
        obtain ⟨s, h1, h2⟩ := hr.seat j y hj
        obtain ⟨s', h3, h4⟩ := hb' j s h1
        refine ⟨s', h3, ?_⟩
        by_cases hrun : ∃ p, g.calls[j]? = some (.running d p)
        · obtain ⟨p1, hp1⟩ := hrun
          rw [hj] at hp1
          cases hp1
          trivial
        · rw [h4 hrun]; exact h2
    have hview : ∀ (b' : Board), (∀ e, e ≠ d → b'.dbs e = b.dbs e) →
        (∀ (j : Nat) (s : Seat), b.seats[j]? = some s → ∃ s', b'.seats[j]? = some s' ∧ ((¬ ∃ p, g.calls[j]? = some (.running d p)) → s' = s)) →
        ∀ (e : Nat) (db1 : Db), e ≠ d → g.dbs[e]? = some db1 → View c env H (g.ran d i st' locks' p') b' e db1 := by
      intro b' hdbs hb' e db1 he hdb1
      refine view_set (x := .running d p') (hr.view e db1 hdb1) (by simp [Hub.ran, Hub.set, he]) rfl hi ?_ ?_ ?_ (hdbs e he) ?_ ?_ (a := rOK)
      · simp only [Call.on]; rw [if_neg (Ne.symm he)]
      · simp only [Call.on]; rw [if_neg (Ne.symm he)]; exact ret_tidy _
      · simp only [Call.on]; rw [if_neg (Ne.symm he)]; exact ret_cut _
      · intro j p1 hji hp1 s hs
        obtain ⟨s', h1, h2⟩ := hb' j s hs
        refine ⟨s', h1, ?_⟩
        rw [h2 (by rintro ⟨p2, hp2⟩; rw [hp1] at hp2; cases hp2; exact he rfl)]
        exact fun _ h => h
      · intro p1 hp1; cases hp1; exact absurd rfl he
    have split : ∀ (b' : Board), (∀ e, e ≠ d → b'.dbs e = b.dbs e) →
        (∀ (j : Nat) (s : Seat), b.seats[j]? = some s → ∃ s', b'.seats[j]? = some s' ∧ ((¬ ∃ p, g.calls[j]? = some (.running d p)) → s' = s)) →
        View c env H (g.ran d i st' locks' p') b' d st'.db → b'.n = b.n → b'.cur = b.cur →
        Rel c env H (g.ran d i st' locks' p') b' := by
      intro b' h1 h2 h3 h4 h5
      refine ⟨by rw [h4, hr.n]; simp [Hub.ran, Hub.set], h5.trans hr.cur, by simpa [Hub.ran, Hub.set] using hr.lt, ?_, fun e db1 hdb1 => ?_, hseat b' h2⟩
      · intro j e p1 hj
        have := runs (i := i) (.running d p') (fun _ _ h => by cases h; exact (List.getElem?_eq_some_iff.1 hdb).1) j e p1 hj
        simpa [Hub.ran, Hub.set] using this
      · simp only [Hub.ran, Hub.set] at hdb1
        by_cases he : e = d
        · subst he
          rw [getElem?_set_eq' hdb] at hdb1
          cases hdb1
          exact h3
        · rw [getElem?_set_ne' he] at hdb1
          exact hview b' h1 h2 e db1 he hdb1
    rcases view_op hclk (hr.view d db hdb) (fun j p1 hj => by
        simp only [Hub.ran, Hub.set] at hj
        by_cases hji : j = i
        · subst hji; exact ⟨p, hi⟩
        · rw [getElem?_set_ne' hji] at hj; exact ⟨p1, hj⟩) hproj with h1 | ⟨t, a, E, ⟨cmd, seen, p0, h2, h3, h4, h5⟩, hrun, h6⟩
    · exact ⟨b, by simpa using hb, split b (fun _ _ => rfl) (fun j s hs => ⟨s, hs, fun _ => rfl⟩) h1 rfl rfl⟩
    · refine ⟨_, .step hb (.exec h2 h3 False.elim h4 h5), split (b.after d t a E) (fun e he => ?_) (fun j s hs => ?_) h6 rfl rfl⟩
      · simp [Board.after, putDb, he]
      · by_cases hjt : j = t
        · subst hjt; exact ⟨_, getElem?_set_eq' hs, fun h => absurd hrun h⟩
        · exact ⟨s, (getElem?_set_ne' hjt).trans hs, fun _ => rfl⟩
  | @finish _ i d a hc hi =>
    have hlt := hr.run i d _ hi
    obtain ⟨hs, gp, ho, hsim, _, hdec⟩ := hr.view d _ (List.getElem?_eq_getElem hlt)
    obtain ⟨q, s, h1, h2, h3⟩ := hdec i _ hi
    have hon := proj_thread (d := d) (db := g.dbs[d]) hi
    simp only [Call.on, if_true] at hon
    have hnil : hs i = [] := ho.disc i _ hon
    obtain ⟨q', h4, h5⟩ := hsim.mode i _ hon
    rw [h1] at h4
    cases h4
    have hq : q = .ret a := by
      rcases h5 with ⟨_, h5, _⟩ | ⟨h5, _⟩ | ⟨h5, _⟩
      · exact h5.symm
      · exact absurd hnil h5
      · exact absurd hnil h5
    subst hq
    have hs : s = .answered a := by
      rcases h3 with ⟨a', rfl, h6⟩ | ⟨cmd, seen, p0, _, _, _, _, q, _, h7, _, h8 | ⟨_, _, _, _, _, _, _, h8⟩⟩
      · cases h6; rfl
      · exact absurd h8.symm (h7 a)
      · cases h8
    subst hs
    refine ⟨b, by simpa using hb, hr.n, hr.cur, hr.lt, runs _ nofun, fun e db hdb => ?_, ?_⟩
    · by_cases he : d = e
      · refine view_set (x := .answered a) (hr.view e db hdb) rfl rfl hi (if_pos he) (ret_tidy _) (ret_cut _) rfl (others _ _ _ fun _ _ => rfl) nofun
      · refine view_set (x := .answered a) (hr.view e db hdb) rfl rfl hi (if_neg he) (ret_tidy _) (ret_cut _) rfl (others _ _ _ fun _ _ => rfl) nofun
    · intro j y hj
      simp only [Hub.set] at hj ⊢
      by_cases hji : j = i
      · subst hji
        rw [getElem?_set_eq' hi] at hj
        cases hj
        exact ⟨_, h2, rfl⟩
      · rw [getElem?_set_ne' hji] at hj
        exact hr.seat j y hj
  | @answer _ i d hc hi =>
    obtain ⟨s, h1, rfl⟩ := hr.seat i _ hi
    refine ⟨_, .step hb (.answer h1), hr.n, hr.cur, hr.lt, runs _ nofun, fun e db hdb => ?_, ?_⟩
    · exact view_set (x := .idle) (hr.view e db hdb) rfl rfl hi rfl (ret_tidy _) (ret_cut _) rfl (others _ _ _ fun j hj => getElem?_set_ne' hj) nofun
    · exact seat_set hr hi (x := .idle) rfl rfl

theorem rel_run (hclk : ∀ i, env.clock i ≤ H) {g0 g : Hub} {b0 : Board} {es : List Ev} (hr : Rel c env H g0 b0) (h : HubRun c env g0 es g)
    (ht : ∀ i cmd, .call i cmd ∈ es → Tame c env H cmd) : ∃ b, BoardRun c env False b0 es b ∧ Rel c env H g b := by
  induction h with
  | refl => exact ⟨b0, .refl, hr⟩
  | @step es g1 g2 e _ hs ih =>
    obtain ⟨b, h1, h2⟩ := ih fun i cmd hm => ht i cmd (List.mem_append_left _ hm)
    exact rel_step hclk h2 h1 hs fun i cmd he => ht i cmd (by simp [he])

/-! ### Executing on the current database -/

theorem putDb_comm {dbs : Nat → Entries} {d e : Nat} {E F : Entries} (h : d ≠ e) : putDb (putDb dbs d E) e F = putDb (putDb dbs e F) d E := by
  funext x
  simp only [putDb]
  by_cases h1 : x = e
  · subst h1; simp [Ne.symm h]
  · simp [h1]

theorem set_comm' {α : Type} {l : List α} {i j : Nat} {x y : α} (h : i ≠ j) : (l.set i x).set j y = (l.set j y).set i x :=
  List.set_comm _ _ h

/-- A command can be executed at a moment in the past when its database was current. -/
theorem board_insert {b0 b : Board} {es : List Ev} (h0 : ∀ s ∈ b0.seats, s = .idle) (h : BoardRun c env True b0 es b) {i d : Nat}
    {cmd : List Slice} {seen : List Nat} {p : Prog Data} {r : Data} {E : Entries} (hi : b.seats[i]? = some (.called cmd seen)) (hd : d ∈ seen)
    (hf : IsProg c cmd p) (ha : Alone env (b.dbs d) p r E) : BoardRun c env True b0 es (b.after d i r E) := by
  induction h generalizing seen with
  | refl => have := h0 _ (List.mem_of_getElem? hi); cases this
  | @step es b1 b2 e hb hs ih =>
    by_cases hcur : d = b2.cur
    · have := BoardRun.step (.step hb hs) (.exec hi hd (fun _ => hcur) hf ha)
      simpa [Board.after] using this
    have seat : ∀ {j : Nat} {x : Seat}, (b1.seats.set j x)[i]? = some (.called cmd seen) → (∀ cmd seen, x ≠ .called cmd seen) →
        i ≠ j ∧ b1.seats[i]? = some (.called cmd seen) := by
      intro j x h hx
      by_cases hij : i = j
      · subst hij
        rw [List.getElem?_set] at h
        simp at h
        exact absurd h.2 (hx _ _)
      · rw [getElem?_set_ne' hij] at h; exact ⟨hij, h⟩
    cases hs with
    | @call _ j cmd' hj =>
      by_cases hij : i = j
      · subst hij
        rw [getElem?_set_eq' hj] at hi
        cases hi
        simp only [List.mem_singleton] at hd
        exact absurd hd hcur
      · rw [getElem?_set_ne' hij] at hi
        have h1 := ih hi hd ha
        have h2 : (b1.after d i r E).seats[j]? = some .idle := (getElem?_set_ne' (Ne.symm hij)).trans hj
        have h3 := BoardRun.step h1 (.call (cmd := cmd') h2)
        simp only [Board.after, set_comm' hij] at h3 ⊢
        exact h3
    | @unknown _ j cmd' seen' a hj hdis =>
      obtain ⟨hij, hi⟩ := seat hi nofun
      have h1 := ih hi hd ha
      have h2 : (b1.after d i r E).seats[j]? = some (.called cmd' seen') := (getElem?_set_ne' (Ne.symm hij)).trans hj
      have h3 := BoardRun.step h1 (.unknown h2 hdis)
      simp only [Board.after, set_comm' hij] at h3 ⊢
      exact h3
    | @select _ j cmd' cmd'' seen' hj hdis =>
      have hij : i ≠ j := by
        rintro rfl
        rw [getElem?_set_eq' (y := Seat.see _ _) (by simp [hj]; rfl)] at hi
        cases hi
      rw [getElem?_set_ne' hij] at hi
      obtain ⟨seen1, hi1, hd1⟩ : ∃ seen1, b1.seats[i]? = some (.called cmd seen1) ∧ d ∈ seen1 := by
        rw [List.getElem?_map, Option.map_eq_some_iff] at hi
        obtain ⟨s, hs1, hs2⟩ := hi
        cases s with
        | idle => cases hs2
        | answered a => cases hs2
        | called cmd1 seen1 =>
          cases hs2
          exact ⟨seen1, hs1, (List.mem_cons.1 hd).resolve_left hcur⟩
      have h1 := ih hi1 hd1 ha
      have h2 : (b1.after d i r E).seats[j]? = some (.called cmd' seen') := (getElem?_set_ne' (Ne.symm hij)).trans hj
      have h3 := BoardRun.step h1 (.select h2 hdis)
      simp only [Board.after, List.map_set, Seat.see, set_comm' hij] at h3 ⊢
      exact h3
    | @exec _ j d' cmd' seen' p' r' E' hj hd' hst hf' ha' =>
      obtain ⟨hij, hi⟩ := seat hi nofun
      have hdd : d ≠ d' := by rw [hst trivial]; exact hcur
      have ha1 : Alone env (b1.dbs d) p r E := by simpa [putDb, hdd] using ha
      have h1 := ih hi hd ha1
      have h2 : (b1.after d i r E).seats[j]? = some (.called cmd' seen') := (getElem?_set_ne' (Ne.symm hij)).trans hj
      have ha2 : Alone env ((b1.after d i r E).dbs d') p' r' E' := by simpa [Board.after, putDb, Ne.symm hdd] using ha'
      have h3 := BoardRun.step h1 (.exec h2 hd' hst hf' ha2)
      simp only [Board.after, set_comm' hij, putDb_comm hdd] at h3 ⊢
      exact h3
    | @answer _ j a hj =>
      obtain ⟨hij, hi⟩ := seat hi nofun
      have h1 := ih hi hd ha
      have h2 : (b1.after d i r E).seats[j]? = some (.answered a) := (getElem?_set_ne' (Ne.symm hij)).trans hj
      have h3 := BoardRun.step h1 (.answer h2)
      simp only [Board.after, set_comm' hij] at h3 ⊢
      exact h3

theorem board_strict {b0 b : Board} {es : List Ev} (h0 : ∀ s ∈ b0.seats, s = .idle) (h : BoardRun c env False b0 es b) :
    BoardRun c env True b0 es b := by
  induction h with
  | refl => exact .refl
  | step _ hs ih =>
    cases hs with
    | call hj => exact .step ih (.call hj)
    | unknown hj hd => exact .step ih (.unknown hj hd)
    | select hj hd => exact .step ih (.select hj hd)
    | exec hj hd _ hf ha => simpa [Board.after] using board_insert h0 ih hj hd hf ha
    | answer hj => exact .step ih (.answer hj)

/-! ### From entries to databases -/

def Seat.slot : Seat → Slot
  | .idle => .idle
  | .called cmd _ => .called cmd
  | .answered d => .answered d

/-- The board shows the server. -/
structure Shows (b : Board) (o : Obj) : Prop where
  n : b.n = o.srv.dbs.length
  cur : b.cur = o.srv.cur
  lt : o.srv.cur < o.srv.dbs.length
  db : ∀ (d : Nat) (db : Db), o.srv.dbs[d]? = some db → b.dbs d = entries ⟨db, 0⟩
  slot : o.slots = b.seats.map Seat.slot

theorem slot_of {b : Board} {o : Obj} (h : Shows b o) {i : Nat} {s : Seat} (hs : b.seats[i]? = some s) : o.slots[i]? = some s.slot := by
  rw [h.slot]; simp [hs]

theorem isProg_run {cmd : List Slice} {p : Prog Data} (hf : IsProg c cmd p) {st : St} {r : Data} {E : Entries} (ha : Alone env (entries st) p r E) :
    ∃ env' st', env'.From env ∧ run env' p st = .ok (r, st') ∧ entries st' = E := by
  obtain ⟨n, args, f, rfl, hsel, hlk, rfl, hnk⟩ := hf
  have hm := lookup_table hlk
  have hw : toLower (str n) ∈ commands.map (·.1) := by
    rw [← table_names c]; exact List.mem_map_of_mem (f := (·.1)) hm
  obtain ⟨⟨w', ka⟩, hwm, he⟩ := List.mem_map.1 hw
  simp only at he
  rw [← he] at hm hnk
  have hd := table_disc c _ (zip_mem (table_names c).symm commands_nodup hwm hm) n args
  exact alone_run (names_fresh _ fun he => hnk (commands_scan _ hwm he)) hd ha

theorem isProg_dispatch {cmd : List Slice} {p : Prog Data} (hf : IsProg c cmd p) : dispatch c cmd = .exec p := by
  obtain ⟨n, args, f, rfl, hsel, hlk, rfl, _⟩ := hf
  simp only [dispatch, if_neg hsel, hlk]

theorem env_from (env : Env) : env.From env := ⟨fun i => ⟨i, rfl⟩, fun i => ⟨i, rfl⟩⟩

theorem see_slot (d : Nat) (s : Seat) : (s.see d).slot = s.slot := by cases s <;> rfl

theorem board_obj {b0 b : Board} {o0 : Obj} {es : List Ev} (h0 : Shows b0 o0) (h : BoardRun c env True b0 es b) :
    ∃ l o, ObjRun c env o0 es l o ∧ Shows b o := by
  induction h with
  | refl => exact ⟨[], o0, .refl, h0⟩
  | step _ hs ih =>
    obtain ⟨l, o, h1, h2⟩ := ih
    cases hs with
    | call hj => exact ⟨_, _, .step h1 (.call (slot_of h2 hj)), h2.n, h2.cur, h2.lt, h2.db, by simp [h2.slot, List.map_set, Seat.slot]⟩
    | @unknown _ j cmd seen a hj hd =>
      have he : execCommand c env o.srv cmd = .ok (a, o.srv) := by simp only [execCommand, hd]
      exact ⟨_, _, .step h1 (.exec (slot_of h2 hj) (env_from env) he), h2.n, h2.cur, h2.lt, h2.db, by simp [h2.slot, List.map_set, Seat.slot]⟩
    | @select _ j cmd cmd' seen hj hd =>
      have he : execCommand c env o.srv cmd = .ok ((selectCmd o.srv.dbs.length o.srv.cur cmd').2,
          { o.srv with cur := (selectCmd o.srv.dbs.length o.srv.cur cmd').1 }) := by simp only [execCommand, hd]
      refine ⟨_, _, .step h1 (.exec (slot_of h2 hj) (env_from env) he), h2.n, by simp [h2.n, h2.cur], selectCmd_lt h2.lt _, h2.db, ?_⟩
      have : Seat.slot ∘ Seat.see (selectCmd o.srv.dbs.length o.srv.cur cmd').1 = Seat.slot := funext fun s => see_slot _ s
      simp [h2.slot, List.map_set, Seat.slot, h2.n, h2.cur, this]
    | @exec _ j d cmd seen p r E hj hd hst hf ha =>
      have hdc : d = o.srv.cur := (hst trivial).trans h2.cur
      subst hdc
      have hdb := List.getElem?_eq_getElem h2.lt
      rw [h2.db _ _ hdb] at ha
      obtain ⟨env', st', h3, h4, h5⟩ := isProg_run hf (st := ⟨_, o.srv.tick⟩) ha
      have he : execCommand c env' o.srv cmd = .ok (r, { o.srv with dbs := o.srv.dbs.set o.srv.cur st'.db, tick := st'.tick }) := by
        simp only [execCommand, isProg_dispatch hf, hdb, h4]
      refine ⟨_, _, .step h1 (.exec (slot_of h2 hj) h3 he), by simp [h2.n], h2.cur, by simpa using h2.lt, fun e db hdb' => ?_, by simp [h2.slot, List.map_set, Seat.slot]⟩
      simp only [putDb]
      by_cases hec : e = o.srv.cur
      · subst hec
        rw [getElem?_set_eq' hdb] at hdb'
        cases hdb'
        rw [if_pos rfl, ← h5]; rfl
      · rw [getElem?_set_ne' hec] at hdb'
        rw [if_neg hec]; exact h2.db e db hdb'
    | answer hj => exact ⟨_, _, .step h1 (.answer (slot_of h2 hj)), h2.n, h2.cur, h2.lt, h2.db, by simp [h2.slot, List.map_set, Seat.slot]⟩

/-! ### The order of execution -/

theorem obj_inTurn {o0 o : Obj} {es : List Ev} {l : List Entry} (h : ObjRun c env o0 es l o) : InTurn c env o0.srv l o.srv := by
  induction h with
  | refl => exact .refl
  | step _ hs ih =>
    cases hs with
    | call _ => simpa using ih
    | exec _ h1 h2 => exact .step ih h1 h2
    | answer _ => simpa using ih

theorem obj_split {o0 o : Obj} {es : List Ev} {l : List Entry} (h : ObjRun c env o0 es l o) {es1 es2 : List Ev} (he : es = es1 ++ es2) :
    ∃ l1 l2 o1, l = l1 ++ l2 ∧ ObjRun c env o0 es1 l1 o1 := by
  induction h generalizing es1 es2 with
  | refl =>
    have : es1 = [] := by cases es1 with | nil => rfl | cons _ _ => cases he
    subst this
    exact ⟨[], [], o0, rfl, .refl⟩
  | @step es l o1 o2 e x h hs ih =>
    rcases List.eq_nil_or_concat es2 with rfl | ⟨es2', a, rfl⟩
    · rw [List.append_nil] at he
      subst he
      exact ⟨_, [], _, (List.append_nil _).symm, .step h hs⟩
    · have key : ∃ es2'', es = es1 ++ es2'' := by
        cases e with
        | none => exact ⟨_, by simpa using he⟩
        | some a' =>
          refine ⟨es2', ?_⟩
          rw [List.concat_eq_append, ← List.append_assoc] at he
          exact (List.append_inj' he rfl).1
      obtain ⟨es2'', he'⟩ := key
      obtain ⟨l1, l2, o3, rfl, h3⟩ := ih he'
      exact ⟨l1, l2 ++ x.toList, o3, by simp, h3⟩

/-- What has been called, executed and answered for a connection. -/
def Tally (cs : List (List Slice)) (xs : List (List Slice × Data)) (as : List Data) : Slot → Prop
  | .idle => cs = xs.map (·.1) ∧ as = xs.map (·.2)
  | .called cmd => cs = xs.map (·.1) ++ [cmd] ∧ as = xs.map (·.2)
  | .answered d => cs = xs.map (·.1) ∧ as ++ [d] = xs.map (·.2)

theorem tally_prefix {cs : List (List Slice)} {xs : List (List Slice × Data)} {as : List Data} {s : Slot} (h : Tally cs xs as s) :
    xs.map (·.1) <+: cs ∧ as <+: xs.map (·.2) := by
  cases s with
  | idle => rw [h.1, h.2]; exact ⟨List.prefix_refl _, List.prefix_refl _⟩
  | called cmd => rw [h.1, h.2]; exact ⟨List.prefix_append _ _, List.prefix_refl _⟩
  | answered d => rw [h.1, ← h.2]; exact ⟨List.prefix_refl _, List.prefix_append _ _⟩

theorem obj_tally {s : Srv} {n : Nat} {o : Obj} {es : List Ev} {l : List Entry} (h : ObjRun c env (Obj.start s n) es l o) (i : Nat) :
    (∀ x, o.slots[i]? = some x → Tally (callsOf i es) (doneBy i l) (answersOf i es) x) ∧
    (o.slots[i]? = none → callsOf i es = [] ∧ doneBy i l = [] ∧ answersOf i es = []) := by
  induction h with
  | refl =>
    refine ⟨fun x hx => ?_, fun _ => ⟨rfl, rfl, rfl⟩⟩
    have := List.mem_of_getElem? hx
    simp only [Obj.start, List.mem_replicate] at this
    rw [this.2]
    exact ⟨rfl, rfl⟩
  | @step es l o1 o2 e x _ hs ih =>
    have other : ∀ {j : Nat} {y z : Slot}, o1.slots[j]? = some y → j ≠ i → ((o1.slots.set j z)[i]? = o1.slots[i]?) :=
      fun _ hj => getElem?_set_ne' (Ne.symm hj)
    cases hs with
    | @call _ j cmd hj =>
      by_cases hji : j = i
      · subst hji
        obtain ⟨h1, h2⟩ := ih.1 _ hj
        simp only [getElem?_set_eq' hj]
        refine ⟨fun x hx => ?_, nofun⟩
        cases hx
        refine ⟨?_, ?_⟩
        · simpa [callsOf, doneBy] using h1
        · simpa [answersOf, doneBy] using h2
      · simp only [other hj hji]
        simpa [callsOf, answersOf, doneBy, hji] using ih
    | @exec _ j cmd env' d s' hj _ _ =>
      by_cases hji : j = i
      · subst hji
        obtain ⟨h1, h2⟩ := ih.1 _ hj
        simp only [getElem?_set_eq' hj]
        refine ⟨fun x hx => ?_, nofun⟩
        cases hx
        refine ⟨?_, ?_⟩
        · simpa [callsOf, doneBy] using h1
        · simpa [answersOf, doneBy] using h2
      · simp only [other hj hji]
        simpa [callsOf, answersOf, doneBy, hji] using ih
    | @answer _ j d hj =>
      by_cases hji : j = i
      · subst hji
        obtain ⟨h1, h2⟩ := ih.1 _ hj
        simp only [getElem?_set_eq' hj]
        refine ⟨fun x hx => ?_, nofun⟩
        cases hx
        refine ⟨?_, ?_⟩
        · simpa [callsOf, doneBy] using h1
        · simpa [answersOf, doneBy] using h2
      · simp only [other hj hji]
        simpa [callsOf, answersOf, doneBy, hji] using ih

theorem obj_explains {s : Srv} {n : Nat} {o : Obj} {es : List Ev} {l : List Entry} (h : ObjRun c env (Obj.start s n) es l o) : Explains l es := by
  have key : ∀ {es1 : List Ev} {l1 : List Entry} {o1 : Obj}, ObjRun c env (Obj.start s n) es1 l1 o1 →
      ∀ i, (doneBy i l1).map (·.1) <+: callsOf i es1 ∧ answersOf i es1 <+: (doneBy i l1).map (·.2) := by
    intro es1 l1 o1 h2 i
    obtain ⟨h3, h4⟩ := obj_tally h2 i
    cases hs : o1.slots[i]? with
    | none => obtain ⟨h5, h6, h7⟩ := h4 hs; simp [h5, h6, h7]
    | some x => exact tally_prefix (h3 x hs)
  refine ⟨fun i => (key h i).1, fun es1 es2 he => ?_⟩
  obtain ⟨l1, l2, o1, h1, h2⟩ := obj_split h he
  exact ⟨l1, l2, h1, key h2⟩

/-- The board of a server on which nothing is going on. -/
def Board.start (s : Srv) (n : Nat) : Board :=
  ⟨fun d => match s.dbs[d]? with | some db => entries ⟨db, 0⟩ | none => fun _ => (none, none), s.dbs.length, s.cur, List.replicate n .idle⟩

theorem start_rel {s : Srv} {n : Nat} (hcur : s.cur < s.dbs.length) (hlast : ∀ db ∈ s.dbs, ∀ k t, db.exp.get k = some t → H ≤ t) :
    Rel c env H (Hub.start s n) (Board.start s n) := by
  have hcall : ∀ {i : Nat} {x : Call}, (Hub.start s n).calls[i]? = some x → x = .idle ∧ i < n := by
    intro i x hx
    rw [Hub.start, List.getElem?_replicate] at hx
    split at hx
    · next hlt => cases hx; exact ⟨rfl, hlt⟩
    · cases hx
  refine ⟨rfl, rfl, hcur, fun i d p h => (by have := (hcall h).1; cases this), fun d db hdb => ?_, fun i x hx => ?_⟩
  · have hb : (Board.start s n).dbs d = entries ⟨db, 0⟩ := by
      have : s.dbs[d]? = some db := hdb
      simp only [Board.start, this]
    have hth : ∀ p ∈ ((Hub.start s n).proj d db).threads, p = .ret rOK := by
      intro p hp
      simp only [Hub.proj, Hub.start, List.map_replicate, List.mem_replicate] at hp
      exact hp.2
    refine ⟨fun _ => [], ((Hub.start s n).proj d db).threads, owns_start fun p hp => ?_, ⟨rfl, fun t p hp => ⟨p, hp, .inl ⟨rfl, rfl, ?_⟩⟩, fun k _ => ?_⟩, ?_, fun i p hi => ?_⟩
    · rw [hth p hp]; exact ret_tidy _
    · rw [hth p (List.mem_of_getElem? hp)]; exact ret_cut _
    · rw [hb]; rfl
    · rw [hb]; exact fun k t h => hlast db (List.mem_of_getElem? hdb) k t h
    · have := (hcall hi).1; cases this
  · obtain ⟨rfl, hlt⟩ := hcall hx
    exact ⟨.idle, by simp [Board.start, hlt], rfl⟩

/-- **C69.**  What connections see of the server, however their goroutines interleave and whatever SELECT does meanwhile, they can see of
one that executes every command whole, at one moment between call and answer: as long as commands work in one critical section and
no deadline passes.  When no command is running the two agree about the databases, too. -/
theorem C69_object_partial {s : Srv} {n : Nat} {es : List Ev} {g : Hub} (hclk : ∀ i, env.clock i ≤ H) (hcur : s.cur < s.dbs.length)
    (hlast : ∀ db ∈ s.dbs, ∀ k t, db.exp.get k = some t → H ≤ t) (ht : ∀ i cmd, .call i cmd ∈ es → Tame c env H cmd)
    (h : HubRun c env (Hub.start s n) es g) :
    ∃ l o, ObjRun c env (Obj.start s n) es l o ∧ (∀ i : Nat, g.calls[i]? = some .idle → o.slots[i]? = some .idle) ∧
      ((∀ x ∈ g.calls, ∀ d p, x ≠ .running d p) → o.srv.cur = g.cur ∧ o.srv.dbs.length = g.dbs.length ∧
        ∀ (d : Nat) (db db' : Db), g.dbs[d]? = some db → o.srv.dbs[d]? = some db' → ∀ k, db'.dict.get k = db.dict.get k ∧ db'.exp.get k = db.exp.get k) := by
  obtain ⟨b, h1, h2⟩ := rel_run hclk (start_rel (n := n) hcur hlast) h ht
  have h3 := board_strict (fun s hs => (List.mem_replicate.1 hs).2) h1
  have hshow : Shows (Board.start s n) (Obj.start s n) := by
    refine ⟨rfl, rfl, hcur, fun d db hdb => ?_, ?_⟩
    · have : s.dbs[d]? = some db := hdb
      simp only [Board.start, this]
    · simp [Obj.start, Board.start, Seat.slot]
  obtain ⟨l, o, h4, h5⟩ := board_obj hshow h3
  refine ⟨l, o, h4, fun i hi => ?_, fun hrun => ⟨h5.cur.symm.trans h2.cur, h5.n.symm.trans h2.n, fun d db db' hdb hdb' k => ?_⟩⟩
  · obtain ⟨s', h6, rfl⟩ := h2.seat i _ hi
    exact slot_of h5 h6
  · obtain ⟨hs, gp, ho, hsim, _⟩ := h2.view d db hdb
    have hnil : ∀ t, hs t = [] := fun t => by
      cases hp : (g.proj d db).threads[t]? with
      | none => exact ho.out t hp
      | some p =>
        simp only [Hub.proj, List.getElem?_map, Option.map_eq_some_iff] at hp
        obtain ⟨x, hx, rfl⟩ := hp
        have hon : x.on d = .ret rOK := by
          cases x with
          | running e q => exact absurd rfl (hrun _ (List.mem_of_getElem? hx) e q)
          | idle => rfl
          | called cmd => rfl
          | answered a => rfl
        have := proj_thread (d := d) (db := db) hx
        rw [hon] at this
        exact ho.disc t _ this
    have h6 := hsim.rest k fun t ht => by rw [hnil t] at ht; cases ht
    rw [h5.db d db' hdb'] at h6
    exact ⟨(congrArg Prod.fst h6).symm, (congrArg Prod.snd h6).symm⟩

/-- **C69.**  Linearizability: there is an order of the commands, each executed whole, that gives the replies the connections get and
the databases, and that keeps the order of commands of which one was answered before the other was called. -/
theorem C69_linearizable_partial {s : Srv} {n : Nat} {es : List Ev} {g : Hub} (hclk : ∀ i, env.clock i ≤ H) (hcur : s.cur < s.dbs.length)
    (hlast : ∀ db ∈ s.dbs, ∀ k t, db.exp.get k = some t → H ≤ t) (ht : ∀ i cmd, .call i cmd ∈ es → Tame c env H cmd)
    (h : HubRun c env (Hub.start s n) es g) :
    ∃ l s', InTurn c env s l s' ∧ Explains l es ∧
      (∀ i : Nat, g.calls[i]? = some .idle → callsOf i es = (doneBy i l).map (·.1) ∧ answersOf i es = (doneBy i l).map (·.2)) ∧
      ((∀ x ∈ g.calls, ∀ d p, x ≠ .running d p) → s'.cur = g.cur ∧ s'.dbs.length = g.dbs.length ∧
        ∀ (d : Nat) (db db' : Db), g.dbs[d]? = some db → s'.dbs[d]? = some db' → ∀ k, db'.dict.get k = db.dict.get k ∧ db'.exp.get k = db.exp.get k) := by
  obtain ⟨l, o, h1, h2, h3⟩ := C69_object_partial hclk hcur hlast ht h
  exact ⟨l, o.srv, obj_inTurn h1, obj_explains h1, fun i hi => (obj_tally h1 i).1 _ (h2 i hi), h3⟩

end
end GRedis
