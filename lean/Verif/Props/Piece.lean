import Verif.Model.Piece
import Verif.Props.LinearEx
/-
C78: commands on several keys act on one key after the other.
-/
namespace GRedis
open Prog Spec

/-! ### A command on several keys is made of commands on one -/

/-- The program of a command. -/
def exprog (c : Cfg) (x : List Slice) : Prog Data :=
  match dispatch c x with
  | .exec p => p
  | _ => .fault .hang

/-- The pieces that are left, one after the other, and the reply. -/
def pieceProg (c : Cfg) (cmd : List Slice) : List (List Slice) → List Data → Prog Data
  | [], done => .ret (gather cmd done)
  | x :: todo, done => (exprog c x).bind fun r => pieceProg c cmd todo (done ++ [r])

theorem bind_ret' {α : Type} (p : Prog α) : p.bind .ret = p := by
  induction p with
  | ret a => rfl
  | fault f => rfl
  | op o k ih => simp only [Prog.bind]; congr 1; funext r; exact ih r

section
variable {c : Cfg}

theorem delLoop_cons (m : Nat) (k : Slice) (ks : List Slice) : delLoop c m (k :: ks) = (delLoop c 0 [k]).bind fun d => delLoop c (m + d) ks := by
  simp only [delLoop]
  show Prog.bind _ _ = Prog.bind (Prog.bind _ _) _
  rw [Prog.bind_assoc']
  congr 1
  funext b
  cases b
  · show Prog.bind _ _ = Prog.bind (Prog.bind _ _) _
    rw [Prog.bind_assoc']
    congr 1
    funext d
    show _ = delLoop c (m + (0 + d)) ks
    rw [Nat.zero_add]
  · rfl

theorem existsLoop_cons (m : Nat) (k : Slice) (ks : List Slice) :
    existsLoop c m (k :: ks) = (existsLoop c 0 [k]).bind fun d => existsLoop c (m + d) ks := by
  simp only [existsLoop]
  show Prog.bind _ _ = Prog.bind (Prog.bind _ _) _
  rw [Prog.bind_assoc']
  congr 1
  funext b
  cases b
  · show Prog.bind _ _ = Prog.bind (Prog.bind _ _) _
    rw [Prog.bind_assoc']
    congr 1
    funext v
    cases v <;> rfl
  · rfl

theorem mGetLoop_cons (l : List Item) (k : Slice) (ks : List Slice) :
    mGetLoop c l (k :: ks) = (mGetLoop c [] [k]).bind fun d => mGetLoop c (l ++ d) ks := by
  simp only [mGetLoop]
  show Prog.bind _ _ = Prog.bind (Prog.bind _ _) _
  rw [Prog.bind_assoc']
  congr 1
  funext b
  cases b
  · show Prog.bind _ _ = Prog.bind (Prog.bind _ _) _
    rw [Prog.bind_assoc']
    congr 1
    funext v
    rcases v with _ | (_ | _ | _ | _) <;> rfl
  · show _ = mGetLoop c (l ++ []) ks
    rw [List.append_nil]; rfl

/-- Numbers are added. -/
theorem gather_numbers {n : Slice} {args : List Slice} (h : toLower (str n) ≠ b!"mget") (as : List Nat) :
    gather (n :: args) (as.map fun a : Nat => rInt a) = rInt (as.sum : Nat) := by
  match as with
  | [] => simp [gather, h, rInt]
  | [a] => simp [gather]
  | a :: b :: as =>
    have : ∀ l : List Nat, ((l.map fun a : Nat => rInt a).map Data.number).sum = ((l.sum : Nat) : Int) := by
      intro l
      induction l with
      | nil => rfl
      | cons a l ih => simp only [List.map_cons, List.sum_cons, ih, Int.natCast_add]; rfl
    simp only [List.map_cons, gather, if_neg h]
    exact congrArg (fun x => Data.item (.int x)) (this (a :: b :: as))

/-- Elements are put together. -/
theorem gather_elems {n : Slice} {args : List Slice} (h : toLower (str n) = b!"mget") (as : List (List Item)) :
    gather (n :: args) (as.map fun a => rArr a) = rArr as.flatten := by
  match as with
  | [] => simp [gather, h, rArr]
  | [a] => simp [gather]
  | a :: b :: as =>
    have : ∀ l : List (List Item), (l.map fun a => rArr a).flatMap Data.elems = l.flatten := by
      intro l
      induction l with
      | nil => rfl
      | cons a l ih => simp only [List.map_cons, List.flatMap_cons, ih, List.flatten_cons]; rfl
    simp only [List.map_cons, gather, if_pos h]
    exact congrArg (fun x => Data.array (some x)) (this (a :: b :: as))

theorem pieces_del {n : Slice} {args : List Slice} (h : toLower (str n) = b!"del") (ks : List Slice) (as : List Nat) :
    pieceProg c (n :: args) (ks.map fun k => [n, k]) (as.map fun a : Nat => rInt a) = (delLoop c as.sum ks).bind fun d => .ret (rInt (d : Nat)) := by
  induction ks generalizing as with
  | nil =>
    show Prog.ret _ = Prog.ret _
    rw [gather_numbers (by rw [h]; decide)]
  | cons k ks ih =>
    have hx : exprog c [n, k] = (delLoop c 0 [k]).bind fun d => .ret (rInt (d : Nat)) := by
      unfold exprog dispatch
      simp only [h]
      rfl
    rw [List.map_cons, pieceProg, hx, delLoop_cons as.sum k ks, Prog.bind_assoc', Prog.bind_assoc']
    congr 1
    funext d
    have := ih (as ++ [d])
    simp only [List.map_append, List.map_cons, List.map_nil, List.sum_append, List.sum_cons, List.sum_nil, Nat.add_zero] at this
    exact this

theorem pieces_exists {n : Slice} {args : List Slice} (h : toLower (str n) = b!"exists") (ks : List Slice) (as : List Nat) :
    pieceProg c (n :: args) (ks.map fun k => [n, k]) (as.map fun a : Nat => rInt a) = (existsLoop c as.sum ks).bind fun d => .ret (rInt (d : Nat)) := by
  induction ks generalizing as with
  | nil =>
    show Prog.ret _ = Prog.ret _
    rw [gather_numbers (by rw [h]; decide)]
  | cons k ks ih =>
    have hx : exprog c [n, k] = (existsLoop c 0 [k]).bind fun d => .ret (rInt (d : Nat)) := by
      unfold exprog dispatch
      simp only [h]
      rfl
    rw [List.map_cons, pieceProg, hx, existsLoop_cons as.sum k ks, Prog.bind_assoc', Prog.bind_assoc']
    congr 1
    funext d
    have := ih (as ++ [d])
    simp only [List.map_append, List.map_cons, List.map_nil, List.sum_append, List.sum_cons, List.sum_nil, Nat.add_zero] at this
    exact this

theorem pieces_mget {n : Slice} {args : List Slice} (h : toLower (str n) = b!"mget") (ks : List Slice) (as : List (List Item)) :
    pieceProg c (n :: args) (ks.map fun k => [n, k]) (as.map fun a => rArr a) = (mGetLoop c as.flatten ks).bind fun l => .ret (rArr l) := by
  induction ks generalizing as with
  | nil =>
    show Prog.ret _ = Prog.ret _
    rw [gather_elems h]
  | cons k ks ih =>
    have hx : exprog c [n, k] = (mGetLoop c [] [k]).bind fun l => .ret (rArr l) := by
      unfold exprog dispatch
      simp only [h]
      rfl
    rw [List.map_cons, pieceProg, hx, mGetLoop_cons as.flatten k ks, Prog.bind_assoc', Prog.bind_assoc']
    congr 1
    funext d
    have := ih (as ++ [d])
    simp only [List.map_append, List.map_cons, List.map_nil, List.flatten_append, List.flatten_cons, List.flatten_nil, List.append_nil] at this
    exact this

/-- The program of a command is that of its pieces. -/
theorem pieceProg_eq {cmd : List Slice} {p : Prog Data} (h : dispatch c cmd = .exec p) : pieceProg c cmd (pieces cmd) [] = p := by
  have single : pieceProg c cmd [cmd] [] = p := by
    show (exprog c cmd).bind (fun r => .ret r) = p
    rw [bind_ret', exprog, h]
  unfold pieces
  split
  · next n k ks =>
    split
    · next hm =>
      simp only [dispatch] at h
      simp only [keyByKey, List.mem_cons, List.not_mem_nil, or_false] at hm
      rcases hm with hm | hm | hm
      · rw [hm] at h
        have h' : Action.exec (delKey c (n :: k :: ks)) = .exec p := h
        cases h'
        exact pieces_del hm (k :: ks) []
      · rw [hm] at h
        have h' : Action.exec (existsKey c (n :: k :: ks)) = .exec p := h
        cases h'
        exact pieces_exists hm (k :: ks) []
      · rw [hm] at h
        have h' : Action.exec (mGetString c (n :: k :: ks)) = .exec p := h
        cases h'
        exact pieces_mget hm (k :: ks) []
    · exact single
  · exact single

end

/-! ### A piece while it runs -/

section
variable {c : Cfg} {env : Env} {H : Int}

theorem undecided_ret {p0 : Prog Data} {a : Data} (h : Undecided env H p0 (.ret a)) : False := by
  obtain ⟨q, _, hq, _, h | ⟨_, _, _, _, _, _, _, h⟩⟩ := h
  · exact hq a h.symm
  · cases h

/-- The critical section decides. -/
theorem undecided_within_bind {p0 q0 p' : Prog Data} {k : Data → Prog Data} {E L : Entries} {h : Held} (hu : Undecided env H p0 q0)
    (hlast : Lasting env H p0) (hE : E.lastsTo H) (hw : Within env E (q0.bind k) h L p') :
    L.lastsTo H ∧ (h = [] → ∃ d, p' = k d ∧ Alone env E p0 d L) := by
  obtain ⟨q, hl, hq, hlead, rfl | ⟨c', key, g, t, rfl, hg, ht, rfl⟩⟩ := hu
  · obtain ⟨q', rfl, hs, hpw⟩ := within_bind hl hq hw
    refine ⟨hlast E L q' hE (hlead E L q' hE hpw), ?_⟩
    rintro rfl
    cases q' with
    | ret d => exact ⟨d, rfl, hlead E L _ hE hpw⟩
    | fault e => exact absurd rfl hs
    | op o f' => exact absurd rfl hs.1
  · obtain ⟨g', hg', _⟩ := half_eq c' key t g
    rw [hg'] at hw
    exact (within_now hw).elim

/-- Operations before the section bring the piece nearer to it, or decide by themselves. -/
theorem undecided_outside_bind (hclk : ∀ i, env.clock i ≤ H) {p0 q0 : Prog Data} {k : Data → Prog Data} {L : Entries} {o : Op}
    {f : o.Ret → Prog Data} {r : o.Ret} (hu : Undecided env H p0 q0) (he : q0.bind k = .op o f) (hn : o.noLock) (hL : L.lastsTo H)
    (hd : Does env L o r L) :
    (∃ q1, f r = q1.bind k ∧ Undecided env H p0 q1) ∨ ∃ d, f r = k d ∧ ∀ E : Entries, E.lastsTo H → Alone env E p0 d E := by
  cases q0 with
  | ret a => exact (undecided_ret hu).elim
  | fault e => cases he
  | op o' g =>
    cases he
    rcases undecided_outside hclk hu hn hL hd with h | ⟨d, h1, h2⟩
    · exact .inl ⟨_, rfl, h⟩
    · exact .inr ⟨d, by show (g r).bind k = _; rw [h1]; rfl, h2⟩

/-! ### A server in between -/

/-- What a connection is doing. -/
inductive Chair where
  | idle
  | called (cmd : List Slice)
  | part (cmd : List Slice) (d : Nat) (done : List Data) (todo : List (List Slice))
  | answered (d : Data)

structure Floor where
  dbs : Nat → Entries
  n : Nat
  cur : Nat
  chairs : List Chair

def Floor.sit (b : Floor) (i : Nat) (s : Chair) : Floor := { b with chairs := b.chairs.set i s }
def Floor.put (b : Floor) (d : Nat) (E : Entries) : Floor := { b with dbs := putDb b.dbs d E }

/-- With `strict` a piece is executed when its database is selected. -/
inductive FloorStep (c : Cfg) (env : Env) (strict : Prop) : Option Ev → Floor → Floor → Prop
  | call {b : Floor} {i : Nat} {cmd : List Slice} : b.chairs[i]? = some .idle → FloorStep c env strict (some (.call i cmd)) b (b.sit i (.called cmd))
  | unknown {b : Floor} {i : Nat} {cmd : List Slice} {d : Data} : b.chairs[i]? = some (.called cmd) → dispatch c cmd = .reply d →
      FloorStep c env strict none b (b.sit i (.answered d))
  | select {b : Floor} {i : Nat} {cmd cmd' : List Slice} : b.chairs[i]? = some (.called cmd) → dispatch c cmd = .select cmd' →
      FloorStep c env strict none b ({ b with cur := (selectCmd b.n b.cur cmd').1 }.sit i (.answered (selectCmd b.n b.cur cmd').2))
  | begin {b : Floor} {i : Nat} {cmd : List Slice} {p : Prog Data} : b.chairs[i]? = some (.called cmd) → dispatch c cmd = .exec p →
      FloorStep c env strict none b (b.sit i (.part cmd b.cur [] (pieces cmd)))
  | piece {b : Floor} {i d : Nat} {cmd x : List Slice} {done : List Data} {todo : List (List Slice)} {p : Prog Data} {r : Data} {E : Entries} :
      b.chairs[i]? = some (.part cmd d done (x :: todo)) → (strict → d = b.cur) → IsProg c x p → Alone env (b.dbs d) p r E →
      FloorStep c env strict none b ((b.put d E).sit i (.part cmd d (done ++ [r]) todo))
  | gather {b : Floor} {i d : Nat} {cmd : List Slice} {done : List Data} : b.chairs[i]? = some (.part cmd d done []) →
      FloorStep c env strict none b (b.sit i (.answered (gather cmd done)))
  | answer {b : Floor} {i : Nat} {d : Data} : b.chairs[i]? = some (.answered d) →
      FloorStep c env strict (some (.answer i d)) b (b.sit i .idle)

inductive FloorRun (c : Cfg) (env : Env) (strict : Prop) (b : Floor) : List Ev → Floor → Prop
  | refl : FloorRun c env strict b [] b
  | step {es : List Ev} {b1 b2 : Floor} {e : Option Ev} : FloorRun c env strict b es b1 → FloorStep c env strict e b1 b2 →
      FloorRun c env strict b (es ++ e.toList) b2

theorem FloorRun.quiet {strict : Prop} {b b1 b2 : Floor} {es : List Ev} (h : FloorRun c env strict b es b1) (hs : FloorStep c env strict none b1 b2) :
    FloorRun c env strict b es b2 := by simpa using FloorRun.step h hs

/-! ### The hub and the floor -/

/-- A piece that can be executed at one moment. -/
def Fit (c : Cfg) (env : Env) (H : Int) (x : List Slice) : Prop :=
  ∃ p, dispatch c x = .exec p ∧ IsProg c x p ∧ Lasting env H p ∧ Lone p

/-- What is left of the program of a connection, and of its pieces. -/
def Stands (c : Cfg) (env : Env) (H : Int) (d : Nat) (s : Chair) (q : Prog Data) : Prop :=
  (∃ a, s = .answered a ∧ q = .ret a) ∨ (∃ f, q = .fault f) ∨
  ∃ cmd done x todo p0 q0, s = .part cmd d done (x :: todo) ∧ (∀ y ∈ todo, Fit c env H y) ∧ IsProg c x p0 ∧ Lasting env H p0 ∧
    Undecided env H p0 q0 ∧ q = q0.bind fun r => pieceProg c cmd todo (done ++ [r])

theorem sit_sit (b : Floor) (i : Nat) (s t : Chair) : (b.sit i s).sit i t = b.sit i t := by simp [Floor.sit]

theorem sit_self {b : Floor} {i : Nat} {s : Chair} (h : b.chairs[i]? = some s) : b.sit i s = b := by
  have : b.chairs.set i s = b.chairs := by
    apply List.ext_getElem?
    intro j
    by_cases hj : j = i
    · subst hj; rw [getElem?_set_eq' h, h]
    · rw [getElem?_set_ne' hj]
  simp [Floor.sit, this]

theorem put_same_db (b : Floor) (d : Nat) : b.put d (b.dbs d) = b := by
  have : putDb b.dbs d (b.dbs d) = b.dbs := by
    funext e
    simp only [putDb]
    split
    · next h => rw [h]
    · rfl
  simp [Floor.put, this]

/-- Before the next critical section. -/
theorem settle_pieces {b0 b : Floor} {es : List Ev} {i d : Nat} {cmd : List Slice} {done : List Data} {todo : List (List Slice)}
    (hb : FloorRun c env False b0 es b) (hi : b.chairs[i]? = some (.part cmd d done todo)) (hfit : ∀ x ∈ todo, Fit c env H x) :
    ∃ s, FloorRun c env False b0 es (b.sit i s) ∧ Stands c env H d s (pieceProg c cmd todo done) := by
  induction todo generalizing done b with
  | nil => exact ⟨_, hb.quiet (.gather hi), .inl ⟨_, rfl, rfl⟩⟩
  | cons x todo ih =>
    obtain ⟨p, h1, h2, h3, h4⟩ := hfit x (by simp)
    have hx : exprog c x = p := by simp only [exprog, h1]
    rcases undecided_start (env := env) (H := H) h4 with ⟨a, rfl⟩ | hu
    · have hstep := hb.quiet (.piece hi False.elim h2 (r := a) (E := b.dbs d) .refl)
      rw [put_same_db] at hstep
      obtain ⟨s, h5, h6⟩ := ih hstep (getElem?_set_eq' hi) fun y hy => hfit y (by simp [hy])
      refine ⟨s, by rw [sit_sit] at h5; exact h5, ?_⟩
      rw [pieceProg, hx]
      exact h6
    · refine ⟨_, by rw [sit_self hi]; exact hb, .inr (.inr ⟨cmd, done, x, todo, p, p, rfl, fun y hy => hfit y (by simp [hy]), h2, h3, hu, ?_⟩)⟩
      rw [pieceProg, hx]

/-- The correspondence for one database. -/
def Sight (c : Cfg) (env : Env) (H : Int) (g : Hub) (b : Floor) (d : Nat) (db : Db) : Prop :=
  ∃ hs gp, Owns c (g.proj d db) hs ∧ Sim c env (g.proj d db) hs (b.dbs d) gp ∧ (b.dbs d).lastsTo H ∧
    ∀ (i : Nat) (p : Prog Data), g.calls[i]? = some (.running d p) → ∃ q s, gp[i]? = some q ∧ b.chairs[i]? = some s ∧ Stands c env H d s q

/-- A connection goes on without touching database `d`. -/
theorem sight_set {g g' : Hub} {b b' : Floor} {d : Nat} {db : Db} {i : Nat} {x0 x : Call} {a : Data} (hv : Sight c env H g b d db)
    (hl : g'.locks d = g.locks d) (hc : g'.calls = g.calls.set i x) (h0 : g.calls[i]? = some x0) (h1 : x0.on d = .ret a)
    (h2 : (x.on d).Tidy c []) (h3 : (x.on d).Cut [] false) (hb : b'.dbs d = b.dbs d)
    (hseat : ∀ (j : Nat) (p : Prog Data), j ≠ i → g.calls[j]? = some (.running d p) → b'.chairs[j]? = b.chairs[j]?)
    (hi : ∀ p, x = .running d p → ∃ s, b'.chairs[i]? = some s ∧ Stands c env H d s p) : Sight c env H g' b' d db := by
  obtain ⟨hs, gp, ho, hsim, hlast, hdec⟩ := hv
  have hti := (proj_thread (d := d) (db := db) h0).trans (congrArg some h1)
  have hproj : g'.proj d db = ⟨⟨db, g'.tick⟩, g.locks d, (g.calls.map (Call.on d)).set i (x.on d)⟩ := by
    simp [Hub.proj, hl, hc, List.map_set]
  refine ⟨hs, gp.set i (x.on d), ?_, ?_, by rw [hb]; exact hlast, ?_⟩
  · rw [hproj]; exact owns_replace ho hti h2
  · rw [hproj, hb]; exact sim_replace ho hsim rfl hti h3
  · intro j p hj
    rw [hc] at hj
    by_cases hji : j = i
    · subst hji
      rw [getElem?_set_eq' h0] at hj
      cases hj
      obtain ⟨s, hs1, hs2⟩ := hi p rfl
      obtain ⟨q, hq, _⟩ := hsim.mode j _ hti
      refine ⟨_, s, thread_self hq, hs1, ?_⟩
      simpa [Call.on] using hs2
    · rw [getElem?_set_ne' hji] at hj
      obtain ⟨q, s, h4, h5, h6⟩ := hdec j p hj
      exact ⟨q, s, by rw [thread_other hji]; exact h4, (hseat j p hji hj).trans h5, h6⟩

theorem proj_idle' {g : Hub} {G : Entries} {d : Nat} {db : Db} {hs : Nat → Held} {gp : List (Prog Data)} {t : Nat} {q : Prog Data}
    (ho : Owns c (g.proj d db) hs) (hsim : Sim c env (g.proj d db) hs G gp) (hq : gp[t]? = some q) :
    (∃ a, q = .ret a) ∨ ∃ p, g.calls[t]? = some (.running d p) :=
  proj_idle (b := ⟨fun _ => G, 0, 0, []⟩) ho hsim hq

/-- The floor goes on for a connection that runs on database `d`. -/
structure Moves (g : Hub) (b b' : Floor) (d : Nat) : Prop where
  n : b'.n = b.n
  cur : b'.cur = b.cur
  dbs : ∀ e, e ≠ d → b'.dbs e = b.dbs e
  chairs : ∀ (j : Nat) (s : Chair), b.chairs[j]? = some s → ∃ s', b'.chairs[j]? = some s' ∧ ((¬ ∃ p, g.calls[j]? = some (.running d p)) → s' = s)

/-- An operation on database `d`. -/
theorem sight_op (hclk : ∀ i, env.clock i ≤ H) {g g' : Hub} {b0 b : Floor} {es : List Ev} {d i : Nat} {db db' : Db} (hv : Sight c env H g b d db)
    (hb : FloorRun c env False b0 es b)
    (hrun : ∀ (j : Nat) (p : Prog Data), g'.calls[j]? = some (.running d p) → ∃ p', g.calls[j]? = some (.running d p'))
    (hs : Step env i (g.proj d db) (g'.proj d db')) :
    ∃ b', FloorRun c env False b0 es b' ∧ Moves g b b' d ∧ Sight c env H g' b' d db' := by
  obtain ⟨hs0, gp, ho, hsim, hlast, hdec⟩ := hv
  obtain ⟨hs', G', gp', ho', hsim', hcase⟩ := sim_step ho hsim hs
  have still : Moves g b b d := ⟨rfl, rfl, fun _ _ => rfl, fun j s hs => ⟨s, hs, fun _ => rfl⟩⟩
  have find : ∀ (t : Nat) (q : Prog Data), gp[t]? = some q → (∀ a, q ≠ .ret a) → (∀ f, q ≠ .fault f) →
      (∃ p, g.calls[t]? = some (.running d p)) ∧ ∃ cmd done x todo p0 q0, b.chairs[t]? = some (.part cmd d done (x :: todo)) ∧
        (∀ y ∈ todo, Fit c env H y) ∧ IsProg c x p0 ∧ Lasting env H p0 ∧ Undecided env H p0 q0 ∧
        q = q0.bind fun r => pieceProg c cmd todo (done ++ [r]) := by
    intro t q hq hne hnf
    rcases proj_idle' ho hsim hq with ⟨a, rfl⟩ | ⟨p, hp⟩
    · exact absurd rfl (hne a)
    · refine ⟨⟨p, hp⟩, ?_⟩
      obtain ⟨q', s, h1, h2, h3⟩ := hdec t p hp
      rw [hq] at h1
      cases h1
      rcases h3 with ⟨a, _, rfl⟩ | ⟨f, rfl⟩ | ⟨cmd, done, x, todo, p0, q0, rfl, h4⟩
      · exact absurd rfl (hne a)
      · exact absurd rfl (hnf f)
      · exact ⟨cmd, done, x, todo, p0, q0, h2, h4⟩
  have stay : ∀ (t : Nat) (q : Prog Data), G' = b.dbs d → gp' = gp.set t q →
      (∀ s, b.chairs[t]? = some s → Stands c env H d s q) → Sight c env H g' b d db' := by
    rintro t q rfl rfl hq
    refine ⟨hs', _, ho', hsim', hlast, fun j p hj => ?_⟩
    obtain ⟨p', hp'⟩ := hrun j p hj
    obtain ⟨q', s, h1, h2, h3⟩ := hdec j p' hp'
    by_cases hjt : j = t
    · subst hjt; exact ⟨q, s, thread_self h1, h2, hq s h2⟩
    · exact ⟨q', s, by rw [thread_other hjt]; exact h1, h2, h3⟩
  have move : ∀ (t : Nat) (cmd x : List Slice) (done : List Data) (todo : List (List Slice)) (p0 : Prog Data) (r : Data),
      b.chairs[t]? = some (.part cmd d done (x :: todo)) → (∀ y ∈ todo, Fit c env H y) → IsProg c x p0 → Alone env (b.dbs d) p0 r G' →
      (∃ p, g.calls[t]? = some (.running d p)) → gp' = gp.set t (pieceProg c cmd todo (done ++ [r])) → G'.lastsTo H →
      ∃ b', FloorRun c env False b0 es b' ∧ Moves g b b' d ∧ Sight c env H g' b' d db' := by
    rintro t cmd x done todo p0 r hch hfit hp ha hrt rfl hl
    have hstep := hb.quiet (.piece hch False.elim hp ha)
    obtain ⟨s, h1, h2⟩ := settle_pieces hstep (getElem?_set_eq' hch) hfit
    rw [sit_sit] at h1
    have hdb : ((b.put d G').sit t s).dbs d = G' := by simp [Floor.put, Floor.sit, putDb]
    refine ⟨_, h1, ⟨rfl, rfl, fun e he => by simp [Floor.put, Floor.sit, putDb, he], fun j s' hj => ?_⟩, hs', _, ho', by rw [hdb]; exact hsim',
      by rw [hdb]; exact hl, fun j p hj => ?_⟩
    · by_cases hjt : j = t
      · subst hjt; exact ⟨s, getElem?_set_eq' hj, fun h => absurd hrt h⟩
      · exact ⟨s', (getElem?_set_ne' hjt).trans hj, fun _ => rfl⟩
    · obtain ⟨p', hp'⟩ := hrun j p hj
      obtain ⟨q', s', h3, h4, h5⟩ := hdec j p' hp'
      by_cases hjt : j = t
      · subst hjt; exact ⟨_, s, thread_self h3, getElem?_set_eq' h4, h2⟩
      · exact ⟨q', s', by rw [thread_other hjt]; exact h3, (getElem?_set_ne' hjt).trans h4, h5⟩
  have outside : ∀ (t : Nat) (o : Op) (f : o.Ret → Prog Data) (r : o.Ret) (L : Entries), gp[t]? = some (.op o f) → o.noLock → L.lastsTo H →
      Does env L o r L → G' = b.dbs d → gp' = gp.set t (f r) →
      ∃ b', FloorRun c env False b0 es b' ∧ Moves g b b' d ∧ Sight c env H g' b' d db' := by
    intro t o f r L hq hn hL hd hG hgp
    obtain ⟨hrt, cmd, done, x, todo, p0, q0, h1, h2, h3, h4, h5, h6⟩ := find t _ hq nofun nofun
    rcases undecided_outside_bind hclk h5 h6.symm hn hL hd with ⟨q1, h7, h8⟩ | ⟨a, h7, h8⟩
    · refine ⟨b, hb, still, stay t (f r) hG hgp fun s hs => ?_⟩
      rw [h1] at hs
      cases hs
      exact .inr (.inr ⟨cmd, done, x, todo, p0, q1, rfl, h2, h3, h4, h8, h7⟩)
    · exact move t cmd x done todo p0 a h1 h2 h3 (by rw [hG]; exact h8 _ hlast) hrt (by rw [hgp, h7]) (by rw [hG]; exact hlast)
  have within_fault : ∀ {E L : Entries} {f : Fault} {h : Held} {p' : Prog Data}, Within env E (.fault f) h L p' → False := by
    intro E L f h p' hw
    induction hw with
    | enter r hp ho => cases hp
    | next _ _ _ ih => exact ih
  rcases hcase with hcase | ⟨rfl, rfl⟩
  · cases hcase with
    | @whole _ _ t q q' hq hw =>
      obtain ⟨hrt, cmd, done, x, todo, p0, q0, h1, h2, h3, h4, h5, rfl⟩ := find t _ hq (fun a ha => by rw [ha] at hw; exact within_ret hw)
        (fun f hf => by rw [hf] at hw; exact within_fault hw)
      obtain ⟨h6, h7⟩ := undecided_within_bind h5 h4 hlast hw
      obtain ⟨a, rfl, ha⟩ := h7 rfl
      exact move t cmd x done todo p0 a h1 h2 h3 ha hrt rfl h6
    | outside hq hn hd => exact outside _ _ _ _ _ hq hn hlast hd rfl rfl
    | @peek L _ t u o f r h qu qu' hq hn hu hne hw hh hd =>
      obtain ⟨_, cmd, done, x, todo, p0, q0, h1, h2, h3, h4, h5, rfl⟩ := find u _ hu (fun a ha => by rw [ha] at hw; exact within_ret hw)
        (fun f hf => by rw [hf] at hw; exact within_fault hw)
      exact outside _ _ _ _ L hq hn (undecided_within_bind h5 h4 hlast hw).1 hd rfl rfl
  · refine ⟨b, hb, still, hs', gp', ho', hsim', hlast, fun j p hj => ?_⟩
    obtain ⟨p', hp'⟩ := hrun j p hj
    exact hdec j p' hp'

/-- The pieces of the command work in one critical section each and set no deadline before `H`. -/
def TamePieces (c : Cfg) (env : Env) (H : Int) (cmd : List Slice) : Prop := ∀ x ∈ pieces cmd, Tame c env H x

/-- What a connection does on the hub and on the floor. -/
def Seated (c : Cfg) (env : Env) (H : Int) : Call → Chair → Prop
  | .idle, s => s = .idle
  | .called cmd, s => s = .called cmd ∧ TamePieces c env H cmd
  | .running _ _, _ => True
  | .answered a, s => s = .answered a

/-- The correspondence. -/
structure Corr (c : Cfg) (env : Env) (H : Int) (g : Hub) (b : Floor) : Prop where
  n : b.n = g.dbs.length
  cur : b.cur = g.cur
  lt : g.cur < g.dbs.length
  run : ∀ (i d : Nat) (p : Prog Data), g.calls[i]? = some (.running d p) → d < g.dbs.length
  view : ∀ (d : Nat) (db : Db), g.dbs[d]? = some db → Sight c env H g b d db
  seat : ∀ (i : Nat) (x : Call), g.calls[i]? = some x → ∃ s, b.chairs[i]? = some s ∧ Seated c env H x s

theorem fit_pieces {cmd : List Slice} {p : Prog Data} (h : dispatch c cmd = .exec p) (ht : TamePieces c env H cmd) :
    (∀ x ∈ pieces cmd, Fit c env H x) ∧ p.Tidy c [] ∧ p.Cut [] false := by
  have hname : ∀ x ∈ pieces cmd, ∃ n args args', cmd = n :: args ∧ x = n :: args' := by
    intro x hx
    unfold pieces at hx
    split at hx
    · next n k ks =>
      split at hx
      · obtain ⟨k', _, rfl⟩ := List.mem_map.1 hx; exact ⟨n, _, _, rfl, rfl⟩
      · cases List.mem_singleton.1 hx; exact ⟨n, _, _, rfl, rfl⟩
    · cases List.mem_singleton.1 hx
      cases cmd with
      | nil => cases h
      | cons n args => exact ⟨n, _, _, rfl, rfl⟩
  cases cmd with
  | nil => cases h
  | cons n args =>
    simp only [dispatch] at h
    split at h
    · cases h
    next hsel =>
    split at h
    next f hf =>
      cases h
      refine ⟨fun x hx => ?_, table_tidy (lookup_table hf) n args, table_cut c _ (lookup_table hf) _⟩
      obtain ⟨n', _, args', he, rfl⟩ := hname x hx
      cases he
      have hdis : dispatch c (n :: args') = .exec (f (n :: args')) := by simp only [dispatch, if_neg hsel, hf]
      obtain ⟨h1, h2, h3, _⟩ := isProg_of hdis (ht _ hx)
      exact ⟨_, hdis, h1, h2, h3⟩
    · cases h

/-- The connections other than `i` stay as they are. -/
theorem chair_set {g : Hub} {b : Floor} {i : Nat} {x x0 : Call} {s : Chair} (hr : Corr c env H g b) (h0 : g.calls[i]? = some x0)
    (hs : Seated c env H x s) :
    ∀ (j : Nat) (y : Call), (g.calls.set i x)[j]? = some y → ∃ s', (b.chairs.set i s)[j]? = some s' ∧ Seated c env H y s' := by
  intro j y hj
  by_cases hji : j = i
  · subst hji
    rw [getElem?_set_eq' h0] at hj
    cases hj
    obtain ⟨s0, h1, _⟩ := hr.seat j x0 h0
    exact ⟨s, getElem?_set_eq' h1, hs⟩
  · rw [getElem?_set_ne' hji] at hj ⊢
    exact hr.seat j y hj

theorem corr_step (hclk : ∀ i, env.clock i ≤ H) {g g' : Hub} {b b0 : Floor} {e : Option Ev} {es : List Ev}
    (hr : Corr c env H g b) (hb : FloorRun c env False b0 es b) (hs : HubStep c env e g g')
    (ht : ∀ i cmd, e = some (.call i cmd) → TamePieces c env H cmd) :
    ∃ b', FloorRun c env False b0 (es ++ e.toList) b' ∧ Corr c env H g' b' := by
  have others : ∀ (b' : Floor) (i d : Nat), (∀ j, j ≠ i → b'.chairs[j]? = b.chairs[j]?) → ∀ (j : Nat) (p : Prog Data), j ≠ i →
      g.calls[j]? = some (.running d p) → b'.chairs[j]? = b.chairs[j]? := fun b' i d h j p hj _ => h j hj
  have runs : ∀ {i : Nat} (x : Call), (∀ d p, x = .running d p → d < g.dbs.length) → ∀ (j d : Nat) (p : Prog Data),
      (g.calls.set i x)[j]? = some (.running d p) → d < g.dbs.length := by
    intro i x hx j d p hj
    by_cases hji : j = i
    · subst hji
      cases h0 : g.calls[j]? with
      | none => rw [List.getElem?_set] at hj; simp at hj; exact hx _ _ hj.2
      | some y => rw [getElem?_set_eq' h0] at hj; cases hj; exact hx _ _ rfl
    · rw [getElem?_set_ne' hji] at hj; exact hr.run j d p hj
  have begins : ∀ (i : Nat) (x0 : Call) (p : Prog Data) (s : Chair), g.calls[i]? = some x0 → (∀ d, ∃ a, x0.on d = .ret a) → p.Tidy c [] →
      p.Cut [] false → Stands c env H g.cur s p → Corr c env H (g.set i (.running g.cur p)) (b.sit i s) := by
    intro i x0 p s hi hx0 htidy hcut hst
    obtain ⟨s0, hs0, _⟩ := hr.seat i _ hi
    refine ⟨hr.n, hr.cur, hr.lt, runs _ (fun _ _ h => by cases h; exact hr.lt), fun e db hdb => ?_, ?_⟩
    · obtain ⟨a, ha⟩ := hx0 e
      by_cases he : g.cur = e
      · refine sight_set (x := .running g.cur p) (hr.view e db hdb) rfl rfl hi ha ?_ ?_ rfl (others _ _ _ fun j hj => getElem?_set_ne' hj) ?_
        · simp only [Call.on]; rw [if_pos he]; exact htidy
        · simp only [Call.on]; rw [if_pos he]; exact hcut
        · intro p' hp'; cases hp'; exact ⟨s, getElem?_set_eq' hs0, hst⟩
      · refine sight_set (x := .running g.cur p) (hr.view e db hdb) rfl rfl hi ha ?_ ?_ rfl (others _ _ _ fun j hj => getElem?_set_ne' hj) ?_
        · simp only [Call.on]; rw [if_neg he]; exact ret_tidy _
        · simp only [Call.on]; rw [if_neg he]; exact ret_cut _
        · intro p' hp'; cases hp'; exact absurd rfl he
    · exact chair_set hr hi (x := .running g.cur p) trivial
  cases hs with
  | @call _ i cmd hc hi =>
    obtain ⟨s, h1, rfl⟩ := hr.seat i _ hi
    refine ⟨_, .step hb (.call h1), hr.n, hr.cur, hr.lt, runs _ nofun, fun d db hdb => ?_, ?_⟩
    · exact sight_set (x := .called cmd) (hr.view d db hdb) rfl rfl hi rfl (ret_tidy _) (ret_cut _) rfl (others _ _ _ fun j hj => getElem?_set_ne' hj) nofun
    · exact chair_set hr hi (x := .called cmd) ⟨rfl, ht i cmd rfl⟩
  | @unknown _ i cmd d hc hi hd =>
    obtain ⟨s, h1, rfl, h3⟩ := hr.seat i _ hi
    refine ⟨_, .step hb (.unknown h1 hd), hr.n, hr.cur, hr.lt, runs _ nofun, fun e db hdb => ?_, ?_⟩
    · exact sight_set (x := .answered d) (hr.view e db hdb) rfl rfl hi rfl (ret_tidy _) (ret_cut _) rfl (others _ _ _ fun j hj => getElem?_set_ne' hj) nofun
    · exact chair_set hr hi (x := .answered d) rfl
  | @select _ i cmd cmd' hc hi hd =>
    obtain ⟨s, h1, rfl, h3⟩ := hr.seat i _ hi
    refine ⟨_, .step hb (.select h1 hd), hr.n, by simp [Hub.set, Floor.sit, hr.n, hr.cur], selectCmd_lt hr.lt _, runs _ nofun, fun e db hdb => ?_, ?_⟩
    · exact sight_set (x := .answered (selectCmd g.dbs.length g.cur cmd').2) (hr.view e db hdb) rfl rfl hi rfl (ret_tidy _) (ret_cut _) rfl
        (others _ _ _ fun j hj => getElem?_set_ne' hj) nofun
    · have := chair_set hr hi (x := .answered (selectCmd g.dbs.length g.cur cmd').2) (s := .answered (selectCmd b.n b.cur cmd').2) (by rw [hr.n, hr.cur]; rfl)
      exact this
  | @begin _ i cmd p hc hi hd =>
    obtain ⟨s, h1, rfl, h3⟩ := hr.seat i _ hi
    obtain ⟨hfit, htidy, hcut⟩ := fit_pieces hd h3
    have hp : p = pieceProg c cmd (pieces cmd) [] := by
      rw [← pieceProg_eq hd]
    obtain ⟨s, h4, h5⟩ := settle_pieces (hb.quiet (.begin h1 hd)) (getElem?_set_eq' h1) hfit
    rw [sit_sit] at h4
    refine ⟨_, by simpa using h4, begins i _ p s hi (fun _ => ⟨_, rfl⟩) htidy hcut ?_⟩
    rw [hp, ← hr.cur]
    exact h5
  | @panic _ i cmd f hc hi hd =>
    obtain ⟨s, h1, rfl, h3⟩ := hr.seat i _ hi
    have := begins i _ (.fault f) (.called cmd) hi (fun _ => ⟨_, rfl⟩) trivial cut_fault (.inr (.inl ⟨f, rfl⟩))
    rw [sit_self h1] at this
    exact ⟨b, by simpa using hb, this⟩
  | @op _ i d p p' db st' locks' hc hi hdb hstep =>
    show ∃ b', _ ∧ Corr c env H (g.ran d i st' locks' p') b'
    have hproj : Step env i (g.proj d db) (Hub.proj (g.ran d i st' locks' p') d st'.db) := by
      refine ⟨?_, p, st', locks', p', ?_, hstep, ?_⟩
      · rintro ⟨q, hq, f, rfl, hf⟩
        obtain ⟨x, hx, he⟩ := List.mem_map.1 hq
        cases x with
        | running e p =>
          simp only [Call.on] at he
          split at he
          · next h => subst h; subst he; exact hc ⟨_, hx, _, _, rfl, hf⟩
          · cases he
        | idle => cases he
        | called cmd => cases he
        | answered d => cases he
      · rw [proj_thread hi]; simp [Call.on]
      · simp [Hub.proj, Hub.ran, Hub.set, List.map_set, Call.on]
    obtain ⟨b', h1, h2, h3⟩ := sight_op hclk (hr.view d db hdb) hb (fun j p1 hj => by
        simp only [Hub.ran, Hub.set] at hj
        by_cases hji : j = i
        · subst hji; exact ⟨p, hi⟩
        · rw [getElem?_set_ne' hji] at hj; exact ⟨p1, hj⟩) hproj
    refine ⟨b', by simpa using h1, by rw [h2.n, hr.n]; simp [Hub.ran, Hub.set], h2.cur.trans hr.cur, by simpa [Hub.ran, Hub.set] using hr.lt, ?_,
      fun e db1 hdb1 => ?_, ?_⟩
    · intro j e p1 hj
      have := runs (i := i) (.running d p') (fun _ _ h => by cases h; exact (List.getElem?_eq_some_iff.1 hdb).1) j e p1 hj
      simpa [Hub.ran, Hub.set] using this
    · simp only [Hub.ran, Hub.set] at hdb1
      by_cases he : e = d
      · subst he
        rw [getElem?_set_eq' hdb] at hdb1
        cases hdb1
        exact h3
      · rw [getElem?_set_ne' he] at hdb1
        refine sight_set (x := .running d p') (hr.view e db1 hdb1) (by simp [Hub.ran, Hub.set, he]) rfl hi ?_ ?_ ?_ (h2.dbs e he) ?_ ?_ (a := rOK)
        · simp only [Call.on]; rw [if_neg (Ne.symm he)]
        · simp only [Call.on]; rw [if_neg (Ne.symm he)]; exact ret_tidy _
        · simp only [Call.on]; rw [if_neg (Ne.symm he)]; exact ret_cut _
        · intro j p1 hji hp1
          obtain ⟨s, hs, _⟩ := hr.seat j _ hp1
          obtain ⟨s', h4, h5⟩ := h2.chairs j s hs
          rw [h4, hs, h5 (by rintro ⟨p2, hp2⟩; rw [hp1] at hp2; cases hp2; exact he rfl)]
        · intro p1 hp1; cases hp1; exact absurd rfl he
    · intro j y hj
      simp only [Hub.ran, Hub.set] at hj
      by_cases hji : j = i
      · subst hji
        rw [getElem?_set_eq' hi] at hj
        cases hj
        obtain ⟨s, h4, _⟩ := hr.seat j _ hi
        obtain ⟨s', h5, _⟩ := h2.chairs j s h4
        exact ⟨s', h5, trivial⟩
      · rw [getElem?_set_ne' hji] at hj
        obtain ⟨s, h4, h5⟩ := hr.seat j y hj
        obtain ⟨s', h6, h7⟩ := h2.chairs j s h4
        refine ⟨s', h6, ?_⟩
        by_cases hrun : ∃ p, g.calls[j]? = some (.running d p)
        · obtain ⟨p1, hp1⟩ := hrun
          rw [hj] at hp1
          cases hp1
          trivial
        · rw [h7 hrun]; exact h5
  | @finish _ i d a hc hi =>
    have hlt := hr.run i d _ hi
    obtain ⟨hs, gp, ho, hsim, _, hdec⟩ := hr.view d _ (List.getElem?_eq_getElem hlt)
    obtain ⟨q, s, h1, h2, h3⟩ := hdec i _ hi
    have hon := proj_thread (d := d) (db := g.dbs[d]) hi
    simp only [Call.on, if_true] at hon
    have hnil : hs i = [] := ho.disc i _ hon
    obtain ⟨q', h4, h5⟩ := hsim.mode i _ hon
    rw [h1] at h4
    cases h4
    have hq : q = .ret a := by
      rcases h5 with ⟨_, h5, _⟩ | ⟨h5, _⟩ | ⟨h5, _⟩
      · exact h5.symm
      · exact absurd hnil h5
      · exact absurd hnil h5
    subst hq
    have hs : s = .answered a := by
      rcases h3 with ⟨a', rfl, h6⟩ | ⟨f, h6⟩ | ⟨cmd, done, x, todo, p0, q0, _, _, _, _, h7, h8⟩
      · cases h6; rfl
      · cases h6
      · cases q0 with
        | ret a => exact (undecided_ret h7).elim
        | fault f => cases h8
        | op o f => cases h8
    subst hs
    refine ⟨b, by simpa using hb, hr.n, hr.cur, hr.lt, runs _ nofun, fun e db hdb => ?_, ?_⟩
    · by_cases he : d = e
      · refine sight_set (x := .answered a) (hr.view e db hdb) rfl rfl hi (if_pos he) (ret_tidy _) (ret_cut _) rfl (others _ _ _ fun _ _ => rfl) nofun
      · refine sight_set (x := .answered a) (hr.view e db hdb) rfl rfl hi (if_neg he) (ret_tidy _) (ret_cut _) rfl (others _ _ _ fun _ _ => rfl) nofun
    · have := chair_set hr hi (x := .answered a) (s := .answered a) rfl
      have h6 : b.chairs.set i (.answered a) = b.chairs := congrArg Floor.chairs (sit_self h2)
      rw [h6] at this
      exact this
  | @answer _ i d hc hi =>
    obtain ⟨s, h1, rfl⟩ := hr.seat i _ hi
    refine ⟨_, .step hb (.answer h1), hr.n, hr.cur, hr.lt, runs _ nofun, fun e db hdb => ?_, ?_⟩
    · exact sight_set (x := .idle) (hr.view e db hdb) rfl rfl hi rfl (ret_tidy _) (ret_cut _) rfl (others _ _ _ fun j hj => getElem?_set_ne' hj) nofun
    · exact chair_set hr hi (x := .idle) rfl

theorem corr_run (hclk : ∀ i, env.clock i ≤ H) {g0 g : Hub} {b0 : Floor} {es : List Ev} (hr : Corr c env H g0 b0) (h : HubRun c env g0 es g)
    (ht : ∀ i cmd, .call i cmd ∈ es → TamePieces c env H cmd) : ∃ b, FloorRun c env False b0 es b ∧ Corr c env H g b := by
  induction h with
  | refl => exact ⟨b0, .refl, hr⟩
  | @step es g1 g2 e _ hs ih =>
    obtain ⟨b, h1, h2⟩ := ih fun i cmd hm => ht i cmd (List.mem_append_left _ hm)
    exact corr_step hclk h2 h1 hs fun i cmd he => ht i cmd (by simp [he])

/-! ### Pieces on the current database -/

/-- A piece can be executed at a moment in the past when its database was current. -/
theorem floor_insert {b0 b : Floor} {es : List Ev} (h0 : ∀ s ∈ b0.chairs, s = .idle) (h : FloorRun c env True b0 es b) {i d : Nat}
    {cmd x : List Slice} {done : List Data} {todo : List (List Slice)} {p : Prog Data} {r : Data} {E : Entries}
    (hi : b.chairs[i]? = some (.part cmd d done (x :: todo))) (hf : IsProg c x p) (ha : Alone env (b.dbs d) p r E) :
    FloorRun c env True b0 es ((b.put d E).sit i (.part cmd d (done ++ [r]) todo)) := by
  induction h with
  | refl => have := h0 _ (List.mem_of_getElem? hi); cases this
  | @step es b1 b2 e hb hs ih =>
    by_cases hcur : d = b2.cur
    · exact (FloorRun.step hb hs).quiet (.piece hi (fun _ => hcur) hf ha)
    have seat : ∀ {j : Nat} {s0 s : Chair}, b1.chairs[j]? = some s0 → (b1.chairs.set j s)[i]? = some (.part cmd d done (x :: todo)) →
        s ≠ .part cmd d done (x :: todo) → i ≠ j ∧ b1.chairs[i]? = some (.part cmd d done (x :: todo)) := by
      intro j s0 s hj h hs
      by_cases hij : i = j
      · subst hij
        rw [getElem?_set_eq' hj] at h
        cases h
        exact absurd rfl hs
      · rw [getElem?_set_ne' hij] at h; exact ⟨hij, h⟩
    have other : ∀ {j : Nat} {s0 : Chair}, i ≠ j → b1.chairs[j]? = some s0 →
        ((b1.put d E).sit i (.part cmd d (done ++ [r]) todo)).chairs[j]? = some s0 := fun hij hj => (getElem?_set_ne' (Ne.symm hij)).trans hj
    cases hs with
    | @call _ j cmd' hj =>
      obtain ⟨hij, hi⟩ := seat hj hi nofun
      have h3 := FloorRun.step (ih hi ha) (.call (cmd := cmd') (other hij hj))
      simp only [Floor.sit, Floor.put, set_comm' hij] at h3 ⊢
      exact h3
    | @unknown _ j cmd' a hj hdis =>
      obtain ⟨hij, hi⟩ := seat hj hi nofun
      have h3 := FloorRun.step (ih hi ha) (.unknown (other hij hj) hdis)
      simp only [Floor.sit, Floor.put, set_comm' hij] at h3 ⊢
      exact h3
    | @select _ j cmd' cmd'' hj hdis =>
      obtain ⟨hij, hi⟩ := seat hj hi nofun
      have h3 := FloorRun.step (ih hi ha) (.select (other hij hj) hdis)
      simp only [Floor.sit, Floor.put, set_comm' hij] at h3 ⊢
      exact h3
    | @begin _ j cmd' p' hj hdis =>
      obtain ⟨hij, hi⟩ := seat hj hi (by intro he; injection he with _ h4; exact hcur h4.symm)
      have h3 := FloorRun.step (ih hi ha) (.begin (other hij hj) hdis)
      simp only [Floor.sit, Floor.put, set_comm' hij] at h3 ⊢
      exact h3
    | @piece _ j d' cmd' x' done' todo' p' r' E' hj hst hf' ha' =>
      have hdd : d ≠ d' := by rw [hst trivial]; exact hcur
      obtain ⟨hij, hi⟩ := seat hj hi (by intro he; cases he; exact hdd rfl)
      have ha1 : Alone env (b1.dbs d) p r E := by simpa [Floor.sit, Floor.put, putDb, hdd] using ha
      have ha2 : Alone env (((b1.put d E).sit i (.part cmd d (done ++ [r]) todo)).dbs d') p' r' E' := by
        simpa [Floor.sit, Floor.put, putDb, Ne.symm hdd] using ha'
      have h3 := FloorRun.step (ih hi ha1) (.piece (other hij hj) hst hf' ha2)
      simp only [Floor.sit, Floor.put, set_comm' hij, putDb_comm hdd] at h3 ⊢
      exact h3
    | @gather _ j d' cmd' done' hj =>
      obtain ⟨hij, hi⟩ := seat hj hi nofun
      have h3 := FloorRun.step (ih hi ha) (.gather (other hij hj))
      simp only [Floor.sit, Floor.put, set_comm' hij] at h3 ⊢
      exact h3
    | @answer _ j a hj =>
      obtain ⟨hij, hi⟩ := seat hj hi nofun
      have h3 := FloorRun.step (ih hi ha) (.answer (other hij hj))
      simp only [Floor.sit, Floor.put, set_comm' hij] at h3 ⊢
      exact h3

theorem floor_strict {b0 b : Floor} {es : List Ev} (h0 : ∀ s ∈ b0.chairs, s = .idle) (h : FloorRun c env False b0 es b) :
    FloorRun c env True b0 es b := by
  induction h with
  | refl => exact .refl
  | step _ hs ih =>
    cases hs with
    | call hj => exact .step ih (.call hj)
    | unknown hj hd => exact .step ih (.unknown hj hd)
    | select hj hd => exact .step ih (.select hj hd)
    | begin hj hd => exact .step ih (.begin hj hd)
    | piece hj _ hf ha => simpa using floor_insert h0 ih hj hf ha
    | gather hj => exact .step ih (.gather hj)
    | answer hj => exact .step ih (.answer hj)

/-! ### From entries to databases -/

instance : DecidableEq (List Slice) := inferInstance

/-- Single commands are called until they are executed, then answered. -/
def Chair.desk : Chair → Desk
  | .idle => .idle
  | .called cmd => .called cmd
  | .part cmd d done todo => if pieces cmd = [cmd] then (match done with | [] => .called cmd | r :: _ => .answered r) else .part cmd d done todo
  | .answered d => .answered d

/-- The pieces of a single command are that command. -/
def Chair.Fine : Chair → Prop
  | .part cmd _ done todo => pieces cmd = [cmd] → (done = [] ∧ todo = [cmd]) ∨ ∃ r, done = [r] ∧ todo = []
  | _ => True

/-- The floor shows the server. -/
structure Tells (b : Floor) (o : Shop) : Prop where
  n : b.n = o.srv.dbs.length
  cur : b.cur = o.srv.cur
  lt : o.srv.cur < o.srv.dbs.length
  db : ∀ (d : Nat) (db : Db), o.srv.dbs[d]? = some db → b.dbs d = entries ⟨db, 0⟩
  desk : o.desks = b.chairs.map Chair.desk
  fine : ∀ s ∈ b.chairs, s.Fine

theorem desk_of {b : Floor} {o : Shop} (h : Tells b o) {i : Nat} {s : Chair} (hs : b.chairs[i]? = some s) : o.desks[i]? = some s.desk := by
  rw [h.desk]; simp [hs]

theorem fine_set {l : List Chair} (h : ∀ s ∈ l, s.Fine) {s : Chair} (hs : s.Fine) (i : Nat) : ∀ t ∈ l.set i s, t.Fine := fun t ht =>
  (List.mem_or_eq_of_mem_set ht).elim (h t) fun he => he ▸ hs

theorem pieces_other {n : Slice} {args : List Slice} (h : toLower (str n) ∉ keyByKey) : pieces (n :: args) = [n :: args] := by
  cases args with
  | nil => rfl
  | cons k ks => simp only [pieces, if_neg h]

theorem pieces_select {cmd cmd' : List Slice} (h : dispatch c cmd = .select cmd') : pieces cmd = [cmd] := by
  cases cmd with
  | nil => rfl
  | cons n args =>
    simp only [dispatch] at h
    split at h
    · next hs => exact pieces_other (by rw [hs]; decide)
    · split at h <;> cases h

theorem keyByKey_known {w : Bytes} (h : w ∈ keyByKey) : ∃ f, (cmdTable c).lookup w = some f := by
  simp only [keyByKey, List.mem_cons, List.not_mem_nil, or_false] at h
  rcases h with rfl | rfl | rfl <;> exact ⟨_, rfl⟩

theorem pieces_reply {cmd : List Slice} {d : Data} (h : dispatch c cmd = .reply d) : pieces cmd = [cmd] := by
  cases cmd with
  | nil => rfl
  | cons n args =>
    simp only [dispatch] at h
    split at h
    · cases h
    · split at h
      · cases h
      next hn =>
        refine pieces_other fun hk => ?_
        obtain ⟨f, hf⟩ := keyByKey_known (c := c) hk
        rw [hn] at hf
        cases hf

theorem floor_shop {b0 b : Floor} {o0 : Shop} {es : List Ev} (h0 : Tells b0 o0) (h : FloorRun c env True b0 es b) :
    ∃ l o, ShopRun c env o0 es l o ∧ Tells b o := by
  induction h with
  | refl => exact ⟨[], o0, .refl, h0⟩
  | @step es b1 b2 e _ hs ih =>
    obtain ⟨l, o, h1, h2⟩ := ih
    cases hs with
    | @call _ j cmd hj =>
      exact ⟨_, _, .step h1 (.call (desk_of h2 hj)), h2.n, h2.cur, h2.lt, h2.db, by simp [h2.desk, List.map_set, Chair.desk, Floor.sit],
        fine_set h2.fine (s := .called cmd) trivial _⟩
    | @unknown _ j cmd a hj hd =>
      have he : execCommand c env o.srv cmd = .ok (a, o.srv) := by simp only [execCommand, hd]
      exact ⟨_, _, .step h1 (.whole (desk_of h2 hj) (pieces_reply hd) (env_from env) he), h2.n, h2.cur, h2.lt, h2.db,
        by simp [h2.desk, List.map_set, Chair.desk, Floor.sit], fine_set h2.fine (s := .answered a) trivial _⟩
    | @select _ j cmd cmd' hj hd =>
      have he : execCommand c env o.srv cmd = .ok ((selectCmd o.srv.dbs.length o.srv.cur cmd').2,
          { o.srv with cur := (selectCmd o.srv.dbs.length o.srv.cur cmd').1 }) := by simp only [execCommand, hd]
      exact ⟨_, _, .step h1 (.whole (desk_of h2 hj) (pieces_select hd) (env_from env) he), h2.n, by simp [h2.n, h2.cur, Floor.sit], selectCmd_lt h2.lt _, h2.db,
        by simp [h2.desk, List.map_set, Chair.desk, Floor.sit, h2.n, h2.cur], fine_set h2.fine (s := .answered (selectCmd b1.n b1.cur cmd').2) trivial _⟩
    | @begin _ j cmd p hj hd =>
      have hdj := desk_of h2 hj
      by_cases hone : pieces cmd = [cmd]
      · refine ⟨l, o, by simpa using h1, h2.n, h2.cur, h2.lt, h2.db, ?_, fine_set h2.fine (s := .part cmd b1.cur [] (pieces cmd)) (fun _ => .inl ⟨rfl, hone⟩) _⟩
        have hd2 : Chair.desk (.part cmd b1.cur [] (pieces cmd)) = .called cmd := by simp [Chair.desk, hone]
        simp only [Floor.sit, List.map_set, hd2, ← h2.desk]
        apply List.ext_getElem?
        intro t
        by_cases ht : t = j
        · subst ht; rw [getElem?_set_eq' hdj, hdj]; rfl
        · rw [getElem?_set_ne' ht]
      · refine ⟨_, _, .step h1 (.begin hdj hone), h2.n, h2.cur, h2.lt, h2.db, ?_, fine_set h2.fine (s := .part cmd b1.cur [] (pieces cmd)) (fun h => absurd h hone) _⟩
        simp [h2.desk, List.map_set, Chair.desk, Floor.sit, hone, h2.cur]
    | @piece _ j d cmd x done todo p r E hj hst hf ha =>
      have hdj := desk_of h2 hj
      have hdc : d = o.srv.cur := (hst trivial).trans h2.cur
      subst hdc
      have hdb := List.getElem?_eq_getElem h2.lt
      rw [h2.db _ _ hdb] at ha
      obtain ⟨env', st', h3, h4, h5⟩ := isProg_run hf (st := ⟨_, o.srv.tick⟩) ha
      have he : execCommand c env' o.srv x = .ok (r, { o.srv with dbs := o.srv.dbs.set o.srv.cur st'.db, tick := st'.tick }) := by
        simp only [execCommand, isProg_dispatch hf, hdb, h4]
      have hdbs : ∀ (e : Nat) (db : Db), (o.srv.dbs.set o.srv.cur st'.db)[e]? = some db → putDb b1.dbs o.srv.cur E e = entries ⟨db, 0⟩ := by
        intro e db hdb'
        simp only [putDb]
        by_cases hec : e = o.srv.cur
        · subst hec
          rw [getElem?_set_eq' hdb] at hdb'
          cases hdb'
          rw [if_pos rfl, ← h5]; rfl
        · rw [getElem?_set_ne' hec] at hdb'
          rw [if_neg hec]; exact h2.db e db hdb'
      by_cases hone : pieces cmd = [cmd]
      · rcases h2.fine _ (List.mem_of_getElem? hj) hone with ⟨rfl, h6⟩ | ⟨_, _, h6⟩
        · cases h6
          simp only [Chair.desk, if_pos hone] at hdj
          refine ⟨_, _, .step h1 (.whole hdj hone h3 he), by simp [h2.n, Floor.sit, Floor.put], h2.cur, by simpa using h2.lt, hdbs, ?_,
            fine_set h2.fine (s := .part cmd o.srv.cur [r] []) (fun _ => .inr ⟨r, rfl, rfl⟩) _⟩
          simp [h2.desk, List.map_set, Chair.desk, Floor.sit, Floor.put, hone]
        · cases h6
      · simp only [Chair.desk, if_neg hone] at hdj
        refine ⟨_, _, .step h1 (.piece hdj rfl h3 he), by simp [h2.n, Floor.sit, Floor.put], h2.cur, by simpa using h2.lt, hdbs, ?_,
          fine_set h2.fine (s := .part cmd o.srv.cur (done ++ [r]) todo) (fun h => absurd h hone) _⟩
        simp [h2.desk, List.map_set, Chair.desk, Floor.sit, Floor.put, hone]
    | @gather _ j d cmd done hj =>
      have hdj := desk_of h2 hj
      by_cases hone : pieces cmd = [cmd]
      · rcases h2.fine _ (List.mem_of_getElem? hj) hone with ⟨_, h6⟩ | ⟨r, rfl, _⟩
        · cases h6
        · refine ⟨l, o, by simpa using h1, h2.n, h2.cur, h2.lt, h2.db, ?_, fine_set h2.fine (s := .answered r) trivial _⟩
          have hd2 : Chair.desk (.answered (gather cmd [r])) = .answered r := rfl
          simp only [Chair.desk, if_pos hone] at hdj
          simp only [Floor.sit, List.map_set, hd2, ← h2.desk]
          apply List.ext_getElem?
          intro t
          by_cases ht : t = j
          · subst ht; rw [getElem?_set_eq' hdj, hdj]
          · rw [getElem?_set_ne' ht]
      · simp only [Chair.desk, if_neg hone] at hdj
        refine ⟨_, _, .step h1 (.gather hdj), h2.n, h2.cur, h2.lt, h2.db, ?_, fine_set h2.fine (s := .answered (gather cmd done)) trivial _⟩
        simp [h2.desk, List.map_set, Chair.desk, Floor.sit]
    | @answer _ j d hj =>
      exact ⟨_, _, .step h1 (.answer (desk_of h2 hj)), h2.n, h2.cur, h2.lt, h2.db, by simp [h2.desk, List.map_set, Chair.desk, Floor.sit],
        fine_set h2.fine (s := .idle) trivial _⟩

theorem shop_inTurn {o0 o : Shop} {es : List Ev} {l : List Entry} (h : ShopRun c env o0 es l o) : InTurn c env o0.srv l o.srv := by
  induction h with
  | refl => exact .refl
  | step _ hs ih =>
    cases hs with
    | call _ => simpa using ih
    | whole _ _ h1 h2 => exact .step ih h1 h2
    | begin _ _ => simpa using ih
    | piece _ _ h1 h2 => exact .step ih h1 h2
    | gather _ => simpa using ih
    | answer _ => simpa using ih

/-- The floor of a server on which nothing is going on. -/
def Floor.start (s : Srv) (n : Nat) : Floor :=
  ⟨fun d => match s.dbs[d]? with | some db => entries ⟨db, 0⟩ | none => fun _ => (none, none), s.dbs.length, s.cur, List.replicate n .idle⟩

theorem start_corr {s : Srv} {n : Nat} (hcur : s.cur < s.dbs.length) (hlast : ∀ db ∈ s.dbs, ∀ k t, db.exp.get k = some t → H ≤ t) :
    Corr c env H (Hub.start s n) (Floor.start s n) := by
  have hcall : ∀ {i : Nat} {x : Call}, (Hub.start s n).calls[i]? = some x → x = .idle ∧ i < n := by
    intro i x hx
    rw [Hub.start, List.getElem?_replicate] at hx
    split at hx
    · next hlt => cases hx; exact ⟨rfl, hlt⟩
    · cases hx
  have hrel := start_rel (c := c) (env := env) (n := n) hcur hlast
  refine ⟨rfl, rfl, hcur, hrel.run, fun d db hdb => ?_, fun i x hx => ?_⟩
  · obtain ⟨hs, gp, h1, h2, h3, _⟩ := hrel.view d db hdb
    refine ⟨hs, gp, h1, h2, h3, fun i p hi => ?_⟩
    have := (hcall hi).1
    cases this
  · obtain ⟨rfl, hlt⟩ := hcall hx
    exact ⟨.idle, by simp [Floor.start, hlt], rfl⟩

/-- **C78.**  What connections see of the server, they can see of one that executes DEL, EXISTS and MGET of several keys as the same command
on one key after the other, each at one moment between call and answer, all on the same database, and every other command (but KEYS
and SETNX) whole, at one moment: as long as no deadline passes.  When no command is running the two agree about the databases, too. -/
theorem C78_pieces {s : Srv} {n : Nat} {es : List Ev} {g : Hub} (hclk : ∀ i, env.clock i ≤ H) (hcur : s.cur < s.dbs.length)
    (hlast : ∀ db ∈ s.dbs, ∀ k t, db.exp.get k = some t → H ≤ t) (ht : ∀ i cmd, .call i cmd ∈ es → ∀ x ∈ pieces cmd, Tame c env H x)
    (h : HubRun c env (Hub.start s n) es g) :
    ∃ l o, ShopRun c env (Shop.start s n) es l o ∧ InTurn c env s l o.srv ∧ (∀ i : Nat, g.calls[i]? = some .idle → o.desks[i]? = some .idle) ∧
      ((∀ x ∈ g.calls, ∀ d p, x ≠ .running d p) → o.srv.cur = g.cur ∧ o.srv.dbs.length = g.dbs.length ∧
        ∀ (d : Nat) (db db' : Db), g.dbs[d]? = some db → o.srv.dbs[d]? = some db' → ∀ k, db'.dict.get k = db.dict.get k ∧ db'.exp.get k = db.exp.get k) := by
  obtain ⟨b, h1, h2⟩ := corr_run hclk (start_corr (n := n) hcur hlast) h ht
  have h3 := floor_strict (fun s hs => (List.mem_replicate.1 hs).2) h1
  have hshow : Tells (Floor.start s n) (Shop.start s n) := by
    refine ⟨rfl, rfl, hcur, fun d db hdb => ?_, ?_, fun s hs => ?_⟩
    · have : s.dbs[d]? = some db := hdb
      simp only [Floor.start, this]
    · simp [Shop.start, Floor.start, Chair.desk]
    · rw [(List.mem_replicate.1 hs).2]; trivial
  obtain ⟨l, o, h4, h5⟩ := floor_shop hshow h3
  refine ⟨l, o, h4, shop_inTurn h4, fun i hi => ?_, fun hrun => ⟨h5.cur.symm.trans h2.cur, h5.n.symm.trans h2.n, fun d db db' hdb hdb' k => ?_⟩⟩
  · obtain ⟨s', h6, rfl⟩ := h2.seat i _ hi
    exact desk_of h5 h6
  · obtain ⟨hs, gp, ho, hsim, _⟩ := h2.view d db hdb
    have hnil : ∀ t, hs t = [] := fun t => by
      cases hp : (g.proj d db).threads[t]? with
      | none => exact ho.out t hp
      | some p =>
        simp only [Hub.proj, List.getElem?_map, Option.map_eq_some_iff] at hp
        obtain ⟨x, hx, rfl⟩ := hp
        have hon : x.on d = .ret rOK := by
          cases x with
          | running e q => exact absurd rfl (hrun _ (List.mem_of_getElem? hx) e q)
          | idle => rfl
          | called cmd => rfl
          | answered a => rfl
        have := proj_thread (d := d) (db := db) hx
        rw [hon] at this
        exact ho.disc t _ this
    have h6 := hsim.rest k fun t ht => by rw [hnil t] at ht; cases ht
    rw [h5.db d db' hdb'] at h6
    exact ⟨(congrArg Prod.fst h6).symm, (congrArg Prod.snd h6).symm⟩

end
end GRedis
