import Verif.Props.EndToEndShared
/-
C123: no consumer on the network is turned away while there is something in the list.
-/
namespace GRedis
open Prog Spec

namespace Spec

/-- The command pops one element from the list at `key`. -/
def Fetches (key : Bytes) : List Slice → Bool
  | [n, k] => (Folds (str n) b!"rpop" ∨ Folds (str n) b!"lpop") ∧ str k = key
  | _ => false

end Spec

section
variable {c : Cfg} {env : Env} {H : Int}

theorem gets_le (key : Bytes) (x : List Slice × Data) : (gets key x).length ≤ if Fetches key x.1 then 1 else 0 := by
  obtain ⟨cmd, d⟩ := x
  unfold gets
  split
  · next n k x h =>
    cases h
    simp only [Fetches]
    split <;> simp_all
  · simp

/-- With no nil elements, a pop that gives nothing found nothing. -/
theorem full_step {env' : Env} {s s' : Srv} {cmd : List Slice} {key : Bytes} {d : Data} {L : List Slice} (hI : s.Inv)
    (hclk : ∀ i, env'.clock i ≤ H) (hL : asList (s.view s.cur key) = some L) (hT : ∀ t, ttlOf (s.view s.cur key) = some t → H ≤ t)
    (hq : Queueing true key cmd) (hno : none ∉ L) (hcmd : none ∉ cmd) (hr : execCommand c env' s cmd = .ok (d, s')) :
    (∀ L', asList (s'.view s.cur key) = some L' → none ∉ L') ∧ (Fetches key cmd → gets key (cmd, d) = [] → L = []) := by
  have hdb : ∀ db, s.dbs[s.cur]? = some db → db.Inv := fun db h => hI db (List.mem_of_getElem? h)
  have hlive : ∀ db, s.view s.cur = db.view → live env' ⟨db, s.tick⟩ key = db.view := by
    intro db hv
    refine reap_same fun t ht => ?_
    have := hT t (by rw [hv]; exact ht)
    have := hclk s.tick
    show env'.clock s.tick ≤ t
    omega
  have hput : ∀ {σ : Store} {k : Bytes} {M M' : List Slice} {ttl : Option Int}, none ∉ M → asList (σ.putList k M ttl k) = some M' → none ∉ M' := by
    intro σ k M M' ttl hM he
    unfold Store.putList at he
    rw [Store.put_self] at he
    split at he
    · cases he; simp
    · cases he; exact hM
  cases hq with
  | @rpush n k e es hn hk =>
    subst hk
    obtain ⟨db, st, h1, h2, h3, h4, h5⟩ := exec_command (w := b!"rpush") (ka := .first) (by decide +kernel) hn hr
    obtain ⟨r, st', h6, _, h7⟩ := runs_iff.1 (C30_rpush c env' ⟨db, s.tick⟩ n k (e :: es) (by simp) (hdb db h1))
    rw [h2] at h6; cases h6
    rw [hlive db h4, ← h4, hL] at h7
    refine ⟨fun L' he => ?_, fun hp => by simp [Fetches] at hp⟩
    rw [h5, h7.2, h4, Store.put_self] at he
    cases he
    intro hm
    rcases List.mem_append.1 hm with hm | hm
    · exact hno hm
    · exact hcmd (List.mem_cons_of_mem _ (List.mem_cons_of_mem _ hm))
  | @lpush n k e es hb hn hk =>
    subst hk
    obtain ⟨db, st, h1, h2, h3, h4, h5⟩ := exec_command (w := b!"lpush") (ka := .first) (by decide +kernel) hn hr
    obtain ⟨r, st', h6, _, h7⟩ := runs_iff.1 (C30_lpush c env' ⟨db, s.tick⟩ n k (e :: es) (by simp) (hdb db h1))
    rw [h2] at h6; cases h6
    rw [hlive db h4, ← h4, hL] at h7
    refine ⟨fun L' he => ?_, fun hp => by simp [Fetches] at hp⟩
    rw [h5, h7.2, h4, Store.put_self] at he
    cases he
    intro hm
    rcases List.mem_append.1 hm with hm | hm
    · exact hcmd (List.mem_cons_of_mem _ (List.mem_cons_of_mem _ (List.mem_reverse.1 hm)))
    · exact hno hm
  | @lpop n k hn hk =>
    subst hk
    obtain ⟨db, st, h1, h2, h3, h4, h5⟩ := exec_command (w := b!"lpop") (ka := .first) (by decide +kernel) hn hr
    obtain ⟨r, st', h6, _, h7⟩ := runs_iff.1 (C30_lpop c env' ⟨db, s.tick⟩ n k (hdb db h1)).1
    rw [h2] at h6; cases h6
    rw [hlive db h4, ← h4] at h7
    rcases asList_inv hL with ⟨he, rfl⟩ | ⟨ttl, he⟩
    · rw [he] at h7
      refine ⟨fun L' he' => ?_, fun _ _ => rfl⟩
      rw [h5, h7.2, he] at he'
      cases he'; simp
    · rw [he] at h7
      obtain ⟨rfl, h7⟩ := h7
      refine ⟨fun L' he' => ?_, fun _ hg => ?_⟩
      · rw [h5, h7] at he'
        exact hput (fun hm => hno (List.mem_of_mem_tail hm)) he'
      · cases L with
        | nil => rfl
        | cons x L =>
          cases x with
          | none => exact (hno (by simp)).elim
          | some x => simp [gets, hn] at hg
  | @rpop n k hb hn hk =>
    subst hk
    obtain ⟨db, st, h1, h2, h3, h4, h5⟩ := exec_command (w := b!"rpop") (ka := .first) (by decide +kernel) hn hr
    obtain ⟨r, st', h6, _, h7⟩ := runs_iff.1 (C30_rpop c env' ⟨db, s.tick⟩ n k (hdb db h1)).1
    rw [h2] at h6; cases h6
    rw [hlive db h4, ← h4] at h7
    rcases asList_inv hL with ⟨he, rfl⟩ | ⟨ttl, he⟩
    · rw [he] at h7
      refine ⟨fun L' he' => ?_, fun _ _ => rfl⟩
      rw [h5, h7.2, he] at he'
      cases he'; simp
    · rw [he] at h7
      obtain ⟨rfl, h7⟩ := h7
      refine ⟨fun L' he' => ?_, fun _ hg => ?_⟩
      · rw [h5, h7] at he'
        exact hput (fun hm => hno (List.dropLast_subset _ hm)) he'
      · rcases List.eq_nil_or_concat L with rfl | ⟨L', x, rfl⟩
        · rfl
        · cases x with
          | none => exact (hno (by simp)).elim
          | some x =>
            simp only [List.concat_eq_append, List.getLast?_append, List.getLast?_singleton] at hg
            simp [gets, hn] at hg
  | bystander hb =>
    obtain ⟨h1, h2⟩ := bystander_step hI hclk hT hb hr
    refine ⟨fun L' he => ?_, fun hp => ?_⟩
    · rw [h2, hL] at he; cases he; exact hno
    · exfalso
      match cmd, hp with
      | [n, k], hp =>
        simp only [Fetches, decide_eq_true_eq] at hp
        rcases hp.1 with hn | hn
        · exact bystander_not hb (w := b!"rpop") (by decide +kernel) (by decide +kernel) hn hp.2
        · exact bystander_not hb (w := b!"lpop") (by decide +kernel) (by decide +kernel) hn hp.2

/-- A pop that gives nothing comes when all that was there and was pushed has been handed out. -/
theorem full_run {s s' : Srv} {key : Bytes} {L : List Slice} {l : List Entry} (hI : s.Inv) (hclk : ∀ i, env.clock i ≤ H)
    (hL : asList (s.view s.cur key) = some L) (hT : ∀ t, ttlOf (s.view s.cur key) = some t → H ≤ t)
    (hq : ∀ x ∈ l, Queueing true key x.2.1) (hno : none ∉ L) (hcmd : ∀ x ∈ l, none ∉ x.2.1) (h : InTurn c env s l s') :
    (∀ L', asList (s'.view s.cur key) = some L' → none ∉ L') ∧
      ∀ l1 x l2, l = l1 ++ x :: l2 → Fetches key x.2.1 → gets key x.2 = [] →
        (L.filterMap id ++ l1.flatMap fun x => puts key x.2.1).Perm (l1.flatMap fun x => gets key x.2) := by
  induction h with
  | refl => exact ⟨fun L' he => by rw [hL] at he; cases he; exact hno, fun l1 x l2 h => by simp at h⟩
  | @step l s1 s2 i cmd d env' hin hfrom hr ih =>
    have hql : ∀ x ∈ l, Queueing true key x.2.1 := fun x hx => hq x (List.mem_append_left _ hx)
    obtain ⟨hn1, ih⟩ := ih hql fun x hx => hcmd x (List.mem_append_left _ hx)
    obtain ⟨hI1, hc1, L1, hL1, hT1, h1, -⟩ := queue_run hI hclk hL hT hql hin
    have hno1 := hn1 L1 hL1
    rw [← hc1] at hL1 hT1
    have hclk' : ∀ i, env'.clock i ≤ H := fun i => by obtain ⟨j, hj⟩ := hfrom.clock i; rw [hj]; exact hclk j
    obtain ⟨h2, h3⟩ := full_step hI1 hclk' hL1 hT1 (hq (i, cmd, d) (by simp)) hno1 (hcmd (i, cmd, d) (by simp)) hr
    rw [hc1] at h2
    refine ⟨h2, fun l1 x l2 he hp hg => ?_⟩
    rcases List.eq_nil_or_concat l2 with rfl | ⟨l2, y, rfl⟩
    · obtain ⟨rfl, hx⟩ := List.append_inj' he rfl
      cases hx
      rw [h3 hp hg] at h1
      simpa using h1
    · rw [List.concat_eq_append, ← List.cons_append, ← List.append_assoc] at he
      exact ih l1 x l2 (List.append_inj' he rfl).1 hp hg

/-- As `explains_cut`, with the number of commands of the client in front. -/
theorem explains_here {l : List Entry} {es1 es2 : List Ev} (h : Explains l (es1 ++ es2)) {j p : Nat} {x : List Slice × Data}
    (hx : (exchanges j (es1 ++ es2))[p]? = some x) (hp : (callsOf j es1).length ≤ p) :
    ∃ l1 l2, l = l1 ++ (j, x) :: l2 ∧ (doneBy j l1).length = p ∧ ∀ i, (exchanges i es1).map (·.1) <+: (doneBy i l1).map (·.1) ∧
      (doneBy i l1).map (·.1) <+: callsOf i (es1 ++ es2) := by
  obtain ⟨A', B', hA', h4⟩ := h.2 es1 es2 rfl
  have hin : (doneBy j l)[p]? = some x := by
    obtain ⟨z, hz⟩ := exchanges_prefix h j
    rw [← hz]
    exact (List.getElem?_append_left (List.getElem?_eq_some_iff.1 hx).1).trans hx
  obtain ⟨u, w, hl, hu⟩ : ∃ u w, l = u ++ (j, x) :: w ∧ (doneBy j u).length = p := by
    clear hp hx hA' h
    induction l generalizing p with
    | nil => simp [doneBy] at hin
    | cons y A ih =>
      by_cases hy : y.1 = j
      · have e : doneBy j (y :: A) = y.2 :: doneBy j A := by simp [doneBy, hy]
        rw [e] at hin
        cases p with
        | zero => exact ⟨[], A, by rw [← Option.some.inj hin, ← hy]; rfl, rfl⟩
        | succ p =>
          obtain ⟨u, w, rfl, hu⟩ := ih hin
          exact ⟨y :: u, w, rfl, by simp [doneBy, hy] at hu ⊢; exact hu⟩
      · have e : doneBy j (y :: A) = doneBy j A := by simp [doneBy, hy]
        rw [e] at hin
        obtain ⟨u, w, rfl, hu⟩ := ih hin
        exact ⟨y :: u, w, rfl, by simp [doneBy, hy] at hu ⊢; exact hu⟩
  refine ⟨u, w, hl, hu, fun i => ⟨?_, ?_⟩⟩
  · have hle : A'.length ≤ u.length := by
      refine Classical.byContradiction fun hlt => ?_
      have hpre : u ++ [(j, x)] <+: A' :=
        List.prefix_of_prefix_length_le (l₃ := l) ⟨w, by rw [hl]; simp⟩ ⟨B', hA'.symm⟩ (by simp; omega)
      obtain ⟨z, rfl⟩ := hpre
      have := (h4 j).1.length_le
      rw [List.length_map, doneBy_append, doneBy_append, List.length_append, List.length_append, hu] at this
      have e : doneBy j [(j, x)] = [x] := by simp [doneBy]
      rw [e, List.length_singleton] at this
      omega
    have hpre : A' <+: u := List.prefix_of_prefix_length_le (l₃ := l) ⟨B', hA'.symm⟩ ⟨(j, x) :: w, by rw [hl]⟩ hle
    obtain ⟨z, rfl⟩ := hpre
    refine ((zip_prefix (h4 i).1 (h4 i).2).map _).trans ?_
    rw [doneBy_append, List.map_append]; exact List.prefix_append _ _
  · refine List.IsPrefix.trans ?_ (h.1 i)
    rw [hl, doneBy_append, List.map_append]; exact List.prefix_append _ _

/-- **C123.**  Clients push to a list and pop from it, at both ends.  A pop that is sent no element is one for which as many pops had arrived, itself
not among them, as elements were there and had been pushed: all pushes that had been answered when the pop had not wholly arrived
are among these. -/
theorem C123_empty {s : Srv} {n : Nat} {es : List Ev} {f : Full} {cmds : Nat → List (List Slice)} {key : Bytes} {L : List Slice} (hI : s.Inv)
    (hclk : ∀ i, env.clock i ≤ H)
    (hcur : s.cur < s.dbs.length) (hlast : ∀ db ∈ s.dbs, ∀ k t, db.exp.get k = some t → H ≤ t) (hL : asList (s.view s.cur key) = some L)
    (hq : ∀ i < n, ∀ cmd ∈ cmds i, Queueing true key cmd ∧ (Bystander key cmd → Tame c env H cmd)) (hno : none ∉ L)
    (hcmd : ∀ i < n, ∀ cmd ∈ cmds i, none ∉ cmd)
    (h : FullRun c env (.start s n) es f) (hs : Sending c f n cmds) :
    ∃ replies, Received f n replies ∧ ∀ es1 f1, Passes c env (.start s n) es1 es f1 f → ∀ j < n, ∀ p cmd d,
      ((cmds j).zip (replies j))[p]? = some (cmd, d) → Fetches key cmd → gets key (cmd, d) = [] → Missing (cmds j) p (f1.wires.conns j).arrived →
      ∃ cut, Arrived f n cmds cut ∧ (∀ i < n, (f1.wires.conns i).done.length ≤ cut i) ∧ cut j = p ∧
        L.length + ((firsts n cmds cut).flatMap (puts key)).length ≤ (firsts n cmds cut).countP (Fetches key) := by
  obtain ⟨hh, hr, hx⟩ := C109_network h hs
  have hsent : ∀ {i cmd}, .call i cmd ∈ es → i < n ∧ cmd ∈ cmds i := fun hc => called_sent h hs hc
  have hq' : ∀ i cmd, .call i cmd ∈ es → Queueing true key cmd ∧ (Bystander key cmd → Tame c env H cmd) := fun i cmd hc =>
    hq i (hsent hc).1 cmd (hsent hc).2
  refine ⟨_, hr, ?_⟩
  rintro es1 f1 ⟨r1, es2, rfl, r2⟩ j hj p cmd d hz hp hg hm
  have hpl : p < (cmds j).length := by
    rw [List.getElem?_zip_eq_some] at hz
    exact (List.getElem?_eq_some_iff.1 hz.1).1
  obtain ⟨l, s', h1, h2, _, _⟩ := C69_linearizable_partial hclk hcur hlast (fun i cmd hc => queueing_tame (hq' i cmd hc).1 (hq' i cmd hc).2) hh
  obtain ⟨-, h3⟩ := full_run hI hclk hL (fun t ht => view_lasts hlast ht) (fun x hx => (hq' x.1 x.2.1 (explains_called h2 hx)).1) hno
    (fun x hx => hcmd x.1 (hsent (explains_called h2 hx)).1 x.2.1 (hsent (explains_called h2 hx)).2) h1
  obtain ⟨l1, l2, hl, h4, h5⟩ := explains_here h2 (by rw [(hx j hj).2.1]; exact hz) (C109_missing r1 (hs j hj).2 hpl hm)
  have h6 := (h3 l1 _ l2 hl hp hg).length_eq
  have hpre : ∀ i < n, (doneBy i l1).map (·.1) <+: cmds i := fun i hi => (h5 i).2.trans (hx i hi).1
  refine ⟨fun i => (doneBy i l1).length, fun i hi => ⟨?_, fun r hrl => ?_⟩, fun i hi => ?_, h4, ?_⟩
  · simpa using (hpre i hi).length_le
  · exact ((called_arrived h hs).1 i hi).2 r (Nat.lt_of_lt_of_le hrl (by simpa using (h5 i).2.length_le))
  · have := (h5 i).1.length_le
    have e := C70_own_replies c env s n es1 f1 r1 i
    rw [List.length_map, exchanges, List.length_zip, ← e.1, List.length_map, e.2] at this
    simp only [List.length_append, List.length_map] at this
    show _ ≤ (doneBy i l1).length
    omega
  · have e : firsts n cmds (fun i => (doneBy i l1).length) = ((List.range n).flatMap fun i => doneBy i l1).map (·.1) := by
      rw [List.map_flatMap]
      refine flatMap_same fun i hi => ?_
      have := (List.prefix_iff_eq_take.1 (hpre i hi)).symm
      rwa [List.length_map] at this
    have hperm := doneBy_perm (n := n) (l := l1) fun x hx => (hsent (explains_called h2 (by rw [hl]; exact List.mem_append_left _ hx))).1
    rw [e, ((hperm.map (·.1)).flatMap_right (puts key)).length_eq, (hperm.map (·.1)).countP_eq]
    have e1 : ((l1.map (·.2)).map (·.1)).flatMap (puts key) = l1.flatMap fun x => puts key x.2.1 := by rw [List.map_map, List.flatMap_map]; rfl
    have e2 : (L.filterMap id).length = L.length := by
      clear h3 h6 hL
      induction L with
      | nil => rfl
      | cons a L ih =>
        cases a with
        | none => exact (hno (by simp)).elim
        | some a => simpa using ih fun hm => hno (List.mem_cons_of_mem _ hm)
    have e3 : ∀ l : List Entry, (l.flatMap fun x => gets key x.2).length ≤ ((l.map (·.2)).map (·.1)).countP (Fetches key) := by
      intro l
      induction l with
      | nil => simp
      | cons a l ih =>
        have := gets_le key a.2
        simp only [List.flatMap_cons, List.length_append, List.map_cons, List.countP_cons]
        omega
    have := e3 l1
    rw [e1]
    rw [List.length_append, e2] at h6
    omega

end

namespace Witness

/-- A client pushes; another one pops twice afterwards. -/
def hatchCmds : Nat → List (List Slice)
  | 0 => [[some b!"RPUSH", some b!"q", some b!"b"]]
  | _ => [[some b!"lpop", some b!"q"], [some b!"RPOP", some b!"q"]]

def hatchTurns : List Turn := [.arrive 0 (sendAll (hatchCmds 0))] ++ List.replicate 7 (.parse 0) ++ [.take 0] ++ List.replicate 9 (.go 0)

def hatchTurns' : List Turn :=
  [.arrive 1 (sendAll (hatchCmds 1))] ++ List.replicate 5 (.parse 1) ++ [.take 1] ++ List.replicate 9 (.go 1) ++
    List.replicate 5 (.parse 1) ++ [.take 1] ++ List.replicate 11 (.go 1)

theorem hatch_wires : (((Full.start shelf 2).turns cfg env hatchTurns).bind fun x => (x.2.turns cfg env hatchTurns').map fun y => (x, y)).map
      (fun x => ((x.1.2.wires.conns 0).done.length, (x.1.2.wires.conns 1).arrived, x.2.2.wires.over, x.2.2.wires.conns 0, x.2.2.wires.conns 1)) =
    some (1, [], none, { arrived := sendAll (hatchCmds 0), done := (hatchCmds 0).zip [replyInt 2], sent := b!":2\r\n" },
      { arrived := sendAll (hatchCmds 1), done := (hatchCmds 1).zip [replyBulk (some b!"a"), replyBulk (some b!"b")],
        sent := b!"$1\r\na\r\n$1\r\nb\r\n" }) := by
  decide +kernel

end Witness

/-- Example: one element was there and one has been pushed when the pops arrive, so the second pop is sent an element, too. -/
example : ∃ es f, FullRun Witness.cfg Witness.env (.start Witness.shelf 2) es f ∧ (f.wires.conns 1).sent = b!"$1\r\na\r\n$1\r\nb\r\n" ∧
    ∃ replies, Received f 2 replies ∧ ∀ d, ((Witness.hatchCmds 1).zip (replies 1))[1]? = some ([some b!"RPOP", some b!"q"], d) →
      gets b!"q" ([some b!"RPOP", some b!"q"], d) ≠ [] := by
  obtain ⟨⟨⟨es1, f1⟩, ⟨es2, f⟩⟩, h, he⟩ := Option.map_eq_some_iff.1 Witness.hatch_wires
  obtain ⟨⟨es1', f1'⟩, h1, h⟩ := Option.bind_eq_some_iff.1 h
  obtain ⟨⟨es2', f'⟩, h2, h⟩ := Option.map_eq_some_iff.1 h
  cases h
  have a0 : (f1.wires.conns 0).done.length = 1 := congrArg (·.1) he
  have a1 : (f1.wires.conns 1).arrived = [] := congrArg (·.2.1) he
  have c1 : f.wires.conns 1 = _ := congrArg (·.2.2.2.2) he
  obtain ⟨hd, hs⟩ := Witness.net_ready (cm := Witness.hatchCmds) (congrArg (·.2.2.1) he) (congrArg (·.2.2.2.1) he) c1 (by decide)
  have hrun := fullRun_trans (full_turns h1) (full_turns h2)
  obtain ⟨replies, r1, r2⟩ := C123_empty (H := 100) (key := b!"q") (L := [some b!"a"]) Witness.shelf_inv (fun _ => Int.le_refl _) (by decide)
    Witness.shelf_lasts (by rfl) (by
      intro i hi cmd hm
      have hcmd : ∀ i < 2, ∀ cmd ∈ Witness.hatchCmds i, cmd = [some b!"RPUSH", some b!"q", some b!"b"] ∨ cmd = [some b!"lpop", some b!"q"] ∨
          cmd = [some b!"RPOP", some b!"q"] := by decide
      rcases hcmd i hi cmd hm with rfl | rfl | rfl
      · exact ⟨.rpush (by decide +kernel) rfl, fun _ => tame_of ⟨by decide, by decide⟩ (by decide)⟩
      · exact ⟨.lpop (by decide +kernel) rfl, fun _ => tame_of ⟨by decide, by decide⟩ (by decide)⟩
      · exact ⟨.rpop rfl (by decide +kernel) rfl, fun _ => tame_of ⟨by decide, by decide⟩ (by decide)⟩) (by decide) (by decide) hrun hs
  refine ⟨_, f, hrun, by rw [c1], replies, r1, fun d hz hg => ?_⟩
  obtain ⟨cut, k1, k2, k3, k4⟩ := r2 es1 f1 ⟨full_turns h1, es2, rfl, full_turns h2⟩ 1 (by decide) 1 _ d hz (by decide +kernel) hg
    (by
      rw [a1]
      have he := sendAll_enc (cmds := Witness.hatchCmds 1) (by decide)
      exact ⟨_, he, List.nil_prefix, fun e => cmdsEnc_ne he (by simp [Witness.hatchCmds]) e.symm⟩)
  have e0 : cut 0 = 1 := by
    have e1 := k2 0 (by decide)
    have e2 : cut 0 ≤ 1 := (k1 0 (by decide)).1
    omega
  have e : firsts 2 Witness.hatchCmds cut = [[some b!"RPUSH", some b!"q", some b!"b"], [some b!"lpop", some b!"q"]] := by
    show List.flatMap _ [0, 1] = _
    simp only [List.flatMap_cons, List.flatMap_nil, e0, k3]
    rfl
  rw [e] at k4
  exact absurd k4 (by decide +kernel)

end GRedis
