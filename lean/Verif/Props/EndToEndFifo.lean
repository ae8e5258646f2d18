import Verif.Props.EndToEndMore
/-
C121: a list is a first-in-first-out queue over the network.
-/
namespace GRedis
open Prog Spec

/-! ### Order in a list without repetitions -/

theorem not_both_ways {α : Type} {W : List α} {x y : α} (hn : W.Nodup) (h1 : [x, y].Sublist W) (h2 : [y, x].Sublist W) : False := by
  induction W with
  | nil => cases h1
  | cons w W ih =>
    obtain ⟨hw, hn'⟩ := List.nodup_cons.1 hn
    cases h1 with
    | cons _ h1 =>
      cases h2 with
      | cons _ h2 => exact ih hn' h1 h2
      | cons_cons _ h2 => exact hw (h1.subset (by simp))
    | cons_cons _ h1 =>
      cases h2 with
      | cons _ h2 => exact hw (h2.subset (by simp))
      | cons_cons _ h2 => exact hw (h1.subset (by simp))

theorem pair_sub {α : Type} {a b : List α} {x y : α} (hx : x ∈ a) (hy : y ∈ b) : [x, y].Sublist (a ++ b) :=
  (List.singleton_sublist.2 hx).append (List.singleton_sublist.2 hy)

theorem pair_left {α : Type} {a b : List α} {x y : α} (hn : (a ++ b).Nodup) (h : [x, y].Sublist (a ++ b)) (hy : y ∈ a) : [x, y].Sublist a := by
  obtain ⟨p, q, e, hp, hq⟩ := List.sublist_append_iff.1 h
  have hq' : q = [] := by
    by_contra hne
    have : y ∈ q := by
      match p, e with
      | [], e => rw [← show [x, y] = q from e]; simp
      | [_], e => rw [← show [y] = q from (List.cons.inj e).2]; simp
      | [_, _], e => exact (hne (List.cons.inj (List.cons.inj e).2).2.symm).elim
      | _ :: _ :: _ :: _, e => cases (List.cons.inj (List.cons.inj e).2).2
    exact (List.nodup_append.1 hn).2.2 y hy y (hq.subset this) rfl
  subst hq'
  rw [e, List.append_nil]; exact hp

namespace Spec

/-- The element `x` is in the queue before `y`: both were there, in this order; or only `x` was there; or one client pushes `x` before `y`; or a push
of `x` had been answered at a moment when not all bytes of a push of `y` had arrived. -/
inductive QueuedBefore (c : Cfg) (env : Env) (s : Srv) (n : Nat) (cmds : Nat → List (List Slice)) (key : Bytes) (L : List Slice) (es : List Ev) (f : Full)
    (x y : Bytes) : Prop
  | there : [x, y].Sublist (L.filterMap id) → QueuedBefore c env s n cmds key L es f x y
  | ahead {i : Nat} : i < n → x ∈ L.filterMap id → y ∈ (cmds i).flatMap (puts key) → QueuedBefore c env s n cmds key L es f x y
  | own {i : Nat} : i < n → [x, y].Sublist ((cmds i).flatMap (puts key)) → QueuedBefore c env s n cmds key L es f x y
  | answered {es1 : List Ev} {f1 : Full} {i j q r : Nat} {a b : List Slice} : Passes c env (.start s n) es1 es f1 f → i < n → j < n →
      (cmds i)[q]? = some a → q < (f1.wires.conns i).done.length → x ∈ puts key a →
      (cmds j)[r]? = some b → Missing (cmds j) r (f1.wires.conns j).arrived → y ∈ puts key b → QueuedBefore c env s n cmds key L es f x y

/-- The element `y` has been sent out before `x`: to one client, in this order; or `y` had been sent at a moment when not all bytes of the pop had
arrived that was sent `x`. -/
inductive SentBefore (c : Cfg) (env : Env) (s : Srv) (n : Nat) (cmds : Nat → List (List Slice)) (key : Bytes) (replies : Nat → List Data) (es : List Ev)
    (f : Full) (y x : Bytes) : Prop
  | own {i : Nat} : i < n → [y, x].Sublist (((cmds i).zip (replies i)).flatMap (gets key)) → SentBefore c env s n cmds key replies es f y x
  | answered {es1 : List Ev} {f1 : Full} {i j q r : Nat} {a b : List Slice × Data} : Passes c env (.start s n) es1 es f1 f → i < n → j < n →
      ((cmds i).zip (replies i))[q]? = some a → q < (f1.wires.conns i).done.length → y ∈ gets key a →
      ((cmds j).zip (replies j))[r]? = some b → Missing (cmds j) r (f1.wires.conns j).arrived → x ∈ gets key b →
      SentBefore c env s n cmds key replies es f y x

end Spec

section
variable {c : Cfg} {env : Env} {H : Int} {s : Srv} {n : Nat} {es : List Ev} {f : Full} {cmds : Nat → List (List Slice)}

theorem doneBy_sub (i : Nat) (l : List Entry) : (doneBy i l).Sublist (l.map (·.2)) := by
  rw [← doneBy_filter]; exact List.filter_sublist.map _

/-- What has been pushed by clients with commands of their own has been pushed by one only. -/
theorem one_pusher {A : Nat → List Bytes} (hn : ((List.range n).flatMap A).Nodup) {i j : Nat} (hi : i < n) (hj : j < n) {x : Bytes}
    (hxi : x ∈ A i) (hxj : x ∈ A j) : i = j := by
  induction n with
  | zero => omega
  | succ n ih =>
    rw [List.range_succ, List.flatMap_append, List.nodup_append] at hn
    obtain ⟨h1, -, h3⟩ := hn
    simp only [List.flatMap_cons, List.flatMap_nil, List.append_nil] at h3
    by_cases ei : i = n
    · by_cases ej : j = n
      · omega
      · subst ei
        exact (h3 x (List.mem_flatMap.2 ⟨j, List.mem_range.2 (by omega), hxj⟩) x hxi rfl).elim
    · by_cases ej : j = n
      · subst ej
        exact (h3 x (List.mem_flatMap.2 ⟨i, List.mem_range.2 (by omega), hxi⟩) x hxj rfl).elim
      · exact ih h1 (by omega) (by omega)

theorem nodup_part {A : Nat → List Bytes} (hn : ((List.range n).flatMap A).Nodup) {i : Nat} (hi : i < n) : (A i).Nodup := by
  induction n with
  | zero => omega
  | succ n ih =>
    rw [List.range_succ, List.flatMap_append, List.nodup_append] at hn
    obtain ⟨h1, h2, -⟩ := hn
    simp only [List.flatMap_cons, List.flatMap_nil, List.append_nil] at h2
    by_cases ei : i = n
    · subst ei; exact h2
    · exact ih h1 (by omega)

/-- **C121.**  Clients push to a list with RPUSH and pop from it with LPOP, and no element is there or pushed twice.  Then what is in the queue before
something else is never sent out after it. -/
theorem C121_fifo {key : Bytes} {L : List Slice} (hI : s.Inv) (hclk : ∀ i, env.clock i ≤ H)
    (hcur : s.cur < s.dbs.length) (hlast : ∀ db ∈ s.dbs, ∀ k t, db.exp.get k = some t → H ≤ t) (hL : asList (s.view s.cur key) = some L)
    (hq : ∀ i < n, ∀ cmd ∈ cmds i, Queueing false key cmd ∧ (Bystander key cmd → Tame c env H cmd))
    (hnd : (L.filterMap id ++ (List.range n).flatMap fun i => (cmds i).flatMap (puts key)).Nodup)
    (h : FullRun c env (.start s n) es f) (hs : Sending c f n cmds) :
    ∃ replies, Received f n replies ∧ ∀ x y, QueuedBefore c env s n cmds key L es f x y → ¬ SentBefore c env s n cmds key replies es f y x := by
  obtain ⟨hh, hr, hx⟩ := C109_network h hs
  have hq' : ∀ i cmd, .call i cmd ∈ es → Queueing false key cmd ∧ (Bystander key cmd → Tame c env H cmd) := fun i cmd hc =>
    hq i (called_sent h hs hc).1 cmd (called_sent h hs hc).2
  obtain ⟨l, L', h1, h2, -⟩ := C81_in_order hI hclk hcur hlast hL hq' hh
  obtain ⟨nL, nP, nLP⟩ := List.nodup_append.1 hnd
  -- the line
  have hlt : ∀ z ∈ l, z.1 < n := fun z hz => (called_sent h hs (explains_called h1 hz)).1
  have hD : ∀ i < n, ((doneBy i l).map (·.1)) <+: cmds i := fun i hi => (h1.1 i).trans (hx i hi).1
  have hperm : (l.flatMap fun z => puts key z.2.1).Perm ((List.range n).flatMap fun i => ((doneBy i l).map (·.1)).flatMap (puts key)) := by
    have e := ((doneBy_perm (n := n) hlt).map (·.1)).flatMap_right (puts key)
    simp only [List.flatMap_map, List.flatMap_assoc] at e ⊢
    exact e.symm
  have hsub : ((List.range n).flatMap fun i => ((doneBy i l).map (·.1)).flatMap (puts key)).Sublist
      ((List.range n).flatMap fun i => (cmds i).flatMap (puts key)) := flatMap_sub fun i hi => sub_flatMap _ (hD i hi).sublist
  have nl : (l.flatMap fun z => puts key z.2.1).Nodup := hperm.nodup_iff.2 (hsub.nodup nP)
  have nW : (L.filterMap id ++ l.flatMap fun z => puts key z.2.1).Nodup :=
    List.nodup_append.2 ⟨nL, nl, fun a ha b hb => nLP a ha b (hsub.subset (hperm.subset hb))⟩
  have hgets : (l.flatMap fun z => gets key z.2).Sublist (L.filterMap id ++ l.flatMap fun z => puts key z.2.1) := by
    rw [h2]; exact List.sublist_append_left _ _
  -- who has pushed what is in the line
  have hmine : ∀ y ∈ L.filterMap id ++ l.flatMap fun z => puts key z.2.1, ∀ i < n, y ∈ (cmds i).flatMap (puts key) →
      y ∈ ((doneBy i l).map (·.1)).flatMap (puts key) := by
    intro y hy i hi hyi
    rcases List.mem_append.1 hy with hy | hy
    · exact (nLP y hy y (List.mem_flatMap.2 ⟨i, List.mem_range.2 hi, hyi⟩) rfl).elim
    · obtain ⟨j, hj, hyj⟩ := List.mem_flatMap.1 (hperm.subset hy)
      have hj := List.mem_range.1 hj
      have := one_pusher nP hi hj hyi ((sub_flatMap _ (hD j hj).sublist).subset hyj)
      subst this; exact hyj
  have hDW : ∀ i, (((doneBy i l).map (·.1)).flatMap (puts key)).Sublist (l.flatMap fun z => puts key z.2.1) := fun i => by
    have e := sub_flatMap (puts key) ((doneBy_sub i l).map (·.1))
    rw [List.map_map, List.flatMap_map (l := l)] at e
    exact e
  have hGW : ∀ i, ((exchanges i es).flatMap (gets key)).Sublist (l.flatMap fun z => gets key z.2) := fun i => by
    have e := sub_flatMap (gets key) ((exchanges_prefix h1 i).sublist.trans (doneBy_sub i l))
    rw [List.flatMap_map (l := l)] at e
    exact e
  -- the order of the line
  have hline : ∀ x y, QueuedBefore c env s n cmds key L es f x y → y ∈ (L.filterMap id ++ l.flatMap fun z => puts key z.2.1) →
      [x, y].Sublist (L.filterMap id ++ l.flatMap fun z => puts key z.2.1) := by
    intro x y hb hy
    cases hb with
    | there hb => exact hb.trans (List.sublist_append_left _ _)
    | ahead hi hxL hyi => exact pair_sub hxL ((hDW _).subset (hmine y hy _ hi hyi))
    | own hi hxy =>
      obtain ⟨R, hR⟩ := hD _ hi
      have hyD := hmine y hy _ hi (hxy.subset (by simp))
      have hn := nodup_part nP hi
      rw [← hR, List.flatMap_append] at hxy hn
      exact (pair_left hn hxy hyD).trans ((hDW _).trans (List.sublist_append_right _ _))
    | @answered es1 f1 i j q r a b hp hi hj ha hqa hxa hb hmi hyb =>
      obtain ⟨r1, es2, rfl, r2⟩ := hp
      have hrl : r < (cmds j).length := (List.getElem?_eq_some_iff.1 hb).1
      have hcl := C109_missing r1 (hs j hj).2 hrl hmi
      obtain ⟨l1, l2, rfl, h3⟩ := h1.2 es1 es2 rfl
      -- the answer to the push of `x`
      obtain ⟨o1, o2⟩ := C70_own_replies c env s n es1 f1 r1 i
      have hl1 : q < (answersOf i es1).length := by rw [← o1, List.length_map]; exact hqa
      have hx1 : x ∈ ((doneBy i l1).map (·.1)).flatMap (puts key) := by
        have e3 : ((doneBy i l1).map (·.1)) <+: cmds i := ((h3 i).1.trans (by rw [callsOf_append]; exact List.prefix_append _ _)).trans (hx i hi).1
        have e4 : q < ((doneBy i l1).map (·.1)).length := by
          have := (h3 i).2.length_le
          rw [List.length_map] at this ⊢
          omega
        refine List.mem_flatMap.2 ⟨a, ?_, hxa⟩
        obtain ⟨t, ht⟩ := e3
        rw [← ht, List.getElem?_append_left e4] at ha
        exact List.mem_of_getElem? ha
      have hx2 : x ∈ l1.flatMap fun z => puts key z.2.1 := by
        have e := sub_flatMap (puts key) ((doneBy_sub i l1).map (·.1))
        rw [List.map_map, List.flatMap_map (l := l1)] at e
        exact e.subset hx1
      -- the push of `y`
      have hyD := hmine y hy j hj (List.mem_flatMap.2 ⟨b, List.mem_of_getElem? hb, hyb⟩)
      rw [doneBy_append, List.map_append, List.flatMap_append, List.mem_append] at hyD
      have hy2 : y ∈ ((doneBy j l2).map (·.1)).flatMap (puts key) := by
        refine hyD.resolve_left fun hy1 => ?_
        have e3 : ((doneBy j l1).map (·.1)) <+: cmds j := ((h3 j).1.trans (by rw [callsOf_append]; exact List.prefix_append _ _)).trans (hx j hj).1
        have e4 : ((doneBy j l1).map (·.1)).length ≤ r := (h3 j).1.length_le.trans hcl
        obtain ⟨t, ht⟩ := e3
        have hn := nodup_part nP hj
        rw [← ht, List.flatMap_append] at hn
        rw [← ht, List.getElem?_append_right e4] at hb
        exact (List.nodup_append.1 hn).2.2 y hy1 y (List.mem_flatMap.2 ⟨b, List.mem_of_getElem? hb, hyb⟩) rfl
      have hy3 : y ∈ l2.flatMap fun z => puts key z.2.1 := by
        have e := sub_flatMap (puts key) ((doneBy_sub j l2).map (·.1))
        rw [List.map_map, List.flatMap_map (l := l2)] at e
        exact e.subset hy2
      rw [List.flatMap_append]
      exact (pair_sub hx2 hy3).trans (List.sublist_append_right _ _)
  refine ⟨_, hr, fun x y hb hsb => ?_⟩
  have hyx : [y, x].Sublist (l.flatMap fun z => gets key z.2) := by
    cases hsb with
    | own hi hyx =>
      rw [← (hx _ hi).2.1] at hyx
      exact hyx.trans (hGW _)
    | @answered es1 f1 i j q r a b hp hi hj ha hqa hya hb' hmi hxb =>
      obtain ⟨r1, es2, rfl, r2⟩ := hp
      have hrl : r < (cmds j).length := by
        rw [List.getElem?_zip_eq_some] at hb'
        exact (List.getElem?_eq_some_iff.1 hb'.1).1
      have hcl := C109_missing r1 (hs j hj).2 hrl hmi
      have hin := answered_then h hs r1 hi hqa ha
      rw [← (hx j hj).2.1] at hb'
      obtain ⟨l1, l2, rfl, h3⟩ := h1.2 es1 es2 rfl
      have h4 : (i, a) ∈ l1 := doneBy_mem.1 ((zip_prefix (h3 i).1 (h3 i).2).subset hin)
      have h5 : (j, b) ∈ l2 := by
        obtain ⟨z, hz⟩ := exchanges_prefix h1 j
        have e2 : (doneBy j (l1 ++ l2))[r]? = some b := by
          rw [← hz, List.getElem?_append_left (List.getElem?_eq_some_iff.1 hb').1]; exact hb'
        rw [doneBy_append] at e2
        have hlen : (doneBy j l1).length ≤ r := by
          have := (h3 j).1.length_le
          rw [List.length_map] at this
          omega
        rw [List.getElem?_append_right hlen] at e2
        exact doneBy_mem.1 (List.mem_of_getElem? e2)
      rw [List.flatMap_append]
      exact pair_sub (List.mem_flatMap.2 ⟨_, h4, hya⟩) (List.mem_flatMap.2 ⟨_, h5, hxb⟩)
  have hyxW := hyx.trans hgets
  exact not_both_ways nW (hline x y hb (hyxW.subset (by simp))) hyxW

end

namespace Witness

/-- A client pushes two elements; another one takes two. -/
def lineCmds : Nat → List (List Slice)
  | 0 => [[some b!"RPUSH", some b!"q", some b!"b", some b!"c"]]
  | _ => [[some b!"lpop", some b!"q"], [some b!"LPOP", some b!"q"]]

def lineTurns : List Turn :=
  [.arrive 0 (sendAll (lineCmds 0))] ++ List.replicate 9 (.parse 0) ++ [.take 0, .go 0, .go 0] ++
    [.arrive 1 (sendAll (lineCmds 1))] ++ List.replicate 5 (.parse 1) ++ [.take 1] ++ List.replicate 11 (.go 1) ++ List.replicate 8 (.go 0) ++
    List.replicate 5 (.parse 1) ++ [.take 1] ++ List.replicate 9 (.go 1)

theorem line_wires : ((Full.start shelf 2).turns cfg env lineTurns).map (fun x => (x.2.wires.over, x.2.wires.conns 0, x.2.wires.conns 1)) =
    some (none, { arrived := sendAll (lineCmds 0), done := (lineCmds 0).zip [replyInt 2], sent := b!":2\r\n" },
      { arrived := sendAll (lineCmds 1), done := (lineCmds 1).zip [replyBulk (some b!"a"), replyBulk (some b!"b")],
        sent := b!"$1\r\na\r\n$1\r\nb\r\n" }) := by
  decide +kernel

end Witness

/-- Example: what the client is sent is in the order of the queue, however the two are served. -/
example : ∃ es f, FullRun Witness.cfg Witness.env (.start Witness.shelf 2) es f ∧ (f.wires.conns 1).sent = b!"$1\r\na\r\n$1\r\nb\r\n" ∧
    ∃ replies, Received f 2 replies ∧
      ¬ SentBefore Witness.cfg Witness.env Witness.shelf 2 Witness.lineCmds b!"q" replies es f b!"b" b!"a" ∧
      ¬ SentBefore Witness.cfg Witness.env Witness.shelf 2 Witness.lineCmds b!"q" replies es f b!"c" b!"b" := by
  obtain ⟨⟨es, f⟩, h, he⟩ := Option.map_eq_some_iff.1 Witness.line_wires
  have c1 : f.wires.conns 1 = _ := congrArg (·.2.2) he
  obtain ⟨hd, hs⟩ := Witness.net_ready (cm := Witness.lineCmds) (congrArg (·.1) he) (congrArg (·.2.1) he) c1 (by decide)
  obtain ⟨replies, r1, r2⟩ := C121_fifo (H := 100) (key := b!"q") (L := [some b!"a"]) Witness.shelf_inv (fun _ => Int.le_refl _) (by decide)
    Witness.shelf_lasts (by rfl) (by
      intro i hi cmd hm
      have hcmd : ∀ i < 2, ∀ cmd ∈ Witness.lineCmds i, cmd = [some b!"RPUSH", some b!"q", some b!"b", some b!"c"] ∨ cmd = [some b!"lpop", some b!"q"] ∨
          cmd = [some b!"LPOP", some b!"q"] := by decide
      rcases hcmd i hi cmd hm with rfl | rfl | rfl
      · exact ⟨.rpush (by decide +kernel) rfl, fun _ => tame_of ⟨by decide, by decide⟩ (by decide)⟩
      · exact ⟨.lpop (by decide +kernel) rfl, fun _ => tame_of ⟨by decide, by decide⟩ (by decide)⟩
      · exact ⟨.lpop (by decide +kernel) rfl, fun _ => tame_of ⟨by decide, by decide⟩ (by decide)⟩) (by decide +kernel) (full_turns h) hs
  exact ⟨es, f, full_turns h, by rw [c1], replies, r1, r2 _ _ (.ahead (i := 0) (by decide) (by decide) (by decide +kernel)),
    r2 _ _ (.own (i := 0) (by decide) (by decide +kernel))⟩

/-- Example: `SentBefore` is not void: the client has been sent `a` before `b`. -/
example : ∃ es f replies, FullRun Witness.cfg Witness.env (.start Witness.shelf 2) es f ∧ Received f 2 replies ∧
    SentBefore Witness.cfg Witness.env Witness.shelf 2 Witness.lineCmds b!"q" replies es f b!"a" b!"b" := by
  obtain ⟨⟨es, f⟩, h, he⟩ := Option.map_eq_some_iff.1 Witness.line_wires
  have c0 : f.wires.conns 0 = _ := congrArg (·.2.1) he
  have c1 : f.wires.conns 1 = _ := congrArg (·.2.2) he
  refine ⟨es, f, fun i => if i = 0 then [replyInt 2] else [replyBulk (some b!"a"), replyBulk (some b!"b")], full_turns h, fun i hi => ?_,
    .own (i := 1) (by decide) (by decide +kernel)⟩
  have : i = 0 ∨ i = 1 := by omega
  rcases this with rfl | rfl
  · rw [c0]; decide +kernel
  · rw [c1]; decide +kernel

end GRedis
