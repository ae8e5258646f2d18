import Verif.Props.Keys
import Verif.Props.Glob
/-
KEYS (C24).
-/
namespace GRedis
open Prog Spec

namespace CMap
variable {V : Type}

/-- The keys of the segments `i, …, i+n-1`. -/
def keysFrom (m : CMap V) (i : Nat) : Nat → List Bytes
  | 0 => []
  | n + 1 => m.segKeys i ++ keysFrom m (i + 1) n

theorem segKeys_lt (m : CMap V) {i : Nat} (h : i < m.size) : m.segKeys i = m.table[i].map (·.1) := by
  simp [segKeys, h]

theorem mem_keysFrom (m : CMap V) (k : Bytes) (n i : Nat) :
    k ∈ m.keysFrom i n ↔ ∃ j, i ≤ j ∧ j < i + n ∧ k ∈ m.segKeys j := by
  induction n generalizing i with
  | zero => simp [keysFrom]; omega
  | succ n ih =>
    simp only [keysFrom, List.mem_append, ih]
    constructor
    · rintro (h | ⟨j, h1, h2, h3⟩)
      · exact ⟨i, Nat.le_refl _, by omega, h⟩
      · exact ⟨j, by omega, by omega, h3⟩
    · rintro ⟨j, h1, h2, h3⟩
      by_cases hj : j = i
      · subst hj; exact .inl h3
      · exact .inr ⟨j, by omega, by omega, h3⟩

theorem WF.segKeys_place {m : CMap V} (h : m.WF) {i : Nat} {k : Bytes} (hk : k ∈ m.segKeys i) :
    i < m.size ∧ hashKey k % m.size = i := by
  by_cases hi : i < m.size
  · rw [segKeys_lt m hi, List.mem_map] at hk
    obtain ⟨p, hp, rfl⟩ := hk
    exact ⟨hi, h.place i hi p hp⟩
  · simp [segKeys, hi] at hk

theorem WF.keysFrom_nodup {m : CMap V} (h : m.WF) (n i : Nat) (hin : i + n ≤ m.size) : (m.keysFrom i n).Nodup := by
  induction n generalizing i with
  | zero => exact List.nodup_nil
  | succ n ih =>
    rw [keysFrom, List.nodup_append]
    refine ⟨?_, ih (i + 1) (by omega), ?_⟩
    · rw [segKeys_lt m (by omega)]; exact h.nodup i (by omega)
    · rintro a ha b hb rfl
      rw [mem_keysFrom] at hb
      obtain ⟨j, h1, _, h3⟩ := hb
      have e1 := (h.segKeys_place ha).2
      have e2 := (h.segKeys_place h3).2
      omega

theorem WF.mem_keys {m : CMap V} (h : m.WF) (k : Bytes) : k ∈ m.keysFrom 0 m.size ↔ (m.get k).isSome := by
  rw [mem_keysFrom]
  have hp : (m.keyPos k).val < m.size := (m.keyPos k).isLt
  constructor
  · rintro ⟨j, _, _, hj⟩
    obtain ⟨h1, h2⟩ := h.segKeys_place hj
    rw [segKeys_lt m h1, ← mget_isSome_iff] at hj
    simp only [get, keyPos, h2]; exact hj
  · intro hk
    refine ⟨(m.keyPos k).val, Nat.zero_le _, by omega, ?_⟩
    rw [segKeys_lt m hp, ← mget_isSome_iff]; exact hk

theorem length_keysFrom (m : CMap V) (n i : Nat) (hin : i + n ≤ m.size) :
    (m.keysFrom i n).length = (((m.table.toList.drop i).take n).map List.length).sum := by
  induction n generalizing i with
  | zero => simp [keysFrom]
  | succ n ih =>
    rw [keysFrom, List.length_append, ih (i + 1) (by omega), segKeys_lt m (by omega)]
    have hi : i < m.table.toList.length := by simp; omega
    rw [List.drop_eq_getElem_cons hi, List.take_succ_cons, List.map_cons, List.sum_cons]
    simp

theorem keys_length (m : CMap V) : (m.keysFrom 0 m.size).length = m.total := by
  rw [length_keysFrom m _ _ (by omega), total]
  simp [List.take_of_length_le]

end CMap

theorem wp_keysSegLoop (env : Env) (len n i : Nat) (acc : List Bytes) (s : St)
    (hlen : acc.length + (s.db.dict.keysFrom i n).length ≤ len) :
    Wp env (keysSegLoop len acc i n) s fun r s' => s'.db = s.db ∧ s.tick ≤ s'.tick ∧
      r.Perm (acc ++ s.db.dict.keysFrom i n) := by
  induction n generalizing i acc s with
  | zero => simp [keysSegLoop, CMap.keysFrom]
  | succ n ih =>
    simp only [keysSegLoop, wp_bind, wp_dictSegKeys, wp_order]
    have hp := env.ord_perm s.tick (s.db.dict.segKeys i)
    simp only [CMap.keysFrom, List.length_append] at hlen
    rw [if_neg (by rw [hp.length_eq]; omega)]
    refine Wp.mono (ih (i + 1) _ ⟨s.db, s.tick + 1⟩ (by simp [hp.length_eq]; omega)) ?_
    rintro r s' ⟨h1, h2, h3⟩
    refine ⟨h1, by simp at h2; omega, h3.trans ?_⟩
    simp only [CMap.keysFrom, List.append_assoc]
    exact List.Perm.append_left _ (hp.append_right _)

/-- The table enumeration returns every key exactly once. -/
theorem wp_dictKeys (env : Env) (s : St) (hI : s.db.Inv) :
    Wp env dictKeys s fun r s' => s'.db = s.db ∧ s.tick ≤ s'.tick ∧ r.Nodup ∧
      ∀ k, k ∈ r ↔ (s.db.dict.get k).isSome := by
  have hc : s.db.dict.count = s.db.dict.total := hI.dict.count
  have hl := CMap.keys_length s.db.dict
  simp only [dictKeys, wp_bind, wp_dictCount, hc]
  rw [if_neg (by omega)]
  simp only [wp_bind, wp_dictSize]
  refine Wp.mono (wp_keysSegLoop env _ _ 0 [] s (by simp [hl])) ?_
  rintro r s' ⟨h1, h2, h3⟩
  simp only [List.nil_append] at h3
  have he : (s.db.dict.total - r.length) = 0 := by rw [h3.length_eq, hl]; omega
  simp only [Int.toNat_natCast, he, List.replicate_zero, List.append_nil, wp_pure]
  refine ⟨h1, h2, h3.nodup_iff.2 (hI.dict.keysFrom_nodup _ _ (by omega)), fun k => ?_⟩
  rw [h3.mem_iff, hI.dict.mem_keys]

/-- Which keys of `ks` the command reported: `l` are the reported ones. -/
structure KeysReported (env : Env) (s s' : St) (G : Bytes → Prop) (l : List Bytes) : Prop where
  nodup : l.Nodup
  sound : ∀ x ∈ l, G x ∧ ∃ e, s.db.view x = some e ∧ (e.ttl = none ∨ ∃ t, Reading env s s' t ∧ ¬ e.expiredAt t)
  complete : ∀ x e, s.db.view x = some e → G x → x ∉ l → ∃ t, Reading env s s' t ∧ e.expiredAt t

theorem wp_keysLoop (c : Cfg) (env : Env) (pat : Bytes) (hpat : ∀ x, ∃ b, pattenMatch pat x = .ok b)
    (ks : List Bytes) (res : List Item) (s : St) (hI : s.db.Inv) (hnd : ks.Nodup) :
    Wp env (keysLoop c pat res ks) s fun r s' => s'.db.Inv ∧ s.tick ≤ s'.tick ∧ Lapsed env s s' ∧
      ∃ l : List Bytes, r = res ++ l.map (fun x => Item.bulk (some x)) ∧ l.Nodup ∧ (∀ x ∈ l, x ∈ ks) ∧
        (∀ x ∈ ks, ∀ e, s.db.view x = some e → x ∉ l → pattenMatch pat x = .ok true →
          ∃ t, Reading env s s' t ∧ e.expiredAt t) ∧
        (∀ x ∈ l, pattenMatch pat x = .ok true ∧ ∀ e, s.db.view x = some e →
          e.ttl = none ∨ ∃ t, Reading env s s' t ∧ ¬ e.expiredAt t) := by
  induction ks generalizing res s with
  | nil => exact ⟨hI, Nat.le_refl _, Lapsed.refl _ _, [], by simp, by simp, by simp, by simp, by simp⟩
  | cons k ks ih =>
    rw [List.nodup_cons] at hnd
    simp only [keysLoop, wp_bind]
    refine wp_check env c _ s _ fun b s1 hc => ?_
    have hI1 := hc.inv hI
    have ht1 := hc.tick1
    have hv : ∀ x ∈ ks, s1.db.view x = s.db.view x := fun x hx => by
      rw [hc.view, Store.reap_ne]; rintro rfl; exact hnd.1 hx
    have step : ∀ (pre : List Bytes) (res' : List Item), (∀ x ∈ pre, x = k) → pre.Nodup →
        res' = res ++ pre.map (fun x => .bulk (some x)) →
        (k ∉ pre → pattenMatch pat k = .ok true → ∀ e, s.db.view k = some e → s.tick < s1.tick ∧
          e.expiredAt (env.clock s.tick)) →
        (k ∈ pre → pattenMatch pat k = .ok true ∧ ∀ e, s.db.view k = some e →
          e.ttl = none ∨ (s.tick < s1.tick ∧ ¬ e.expiredAt (env.clock s.tick))) →
        Wp env (keysLoop c pat res' ks) s1 fun r s' => s'.db.Inv ∧ s.tick ≤ s'.tick ∧ Lapsed env s s' ∧
          ∃ l : List Bytes, r = res ++ l.map (fun x => Item.bulk (some x)) ∧ l.Nodup ∧ (∀ x ∈ l, x ∈ k :: ks) ∧
            (∀ x ∈ k :: ks, ∀ e, s.db.view x = some e → x ∉ l → pattenMatch pat x = .ok true →
              ∃ t, Reading env s s' t ∧ e.expiredAt t) ∧
            (∀ x ∈ l, pattenMatch pat x = .ok true ∧ ∀ e, s.db.view x = some e →
              e.ttl = none ∨ ∃ t, Reading env s s' t ∧ ¬ e.expiredAt t) := by
      rintro pre res' hpre hpn rfl hno hyes
      refine Wp.mono (ih _ s1 hI1 hnd.2) ?_
      rintro r s' ⟨h1, h2, h3, l, hr, hl1, hl2, hl3, hl4⟩
      have hrd : ∀ t, Reading env s1 s' t → Reading env s s' t := fun t h => h.mono ht1 (Nat.le_refl _)
      refine ⟨h1, Nat.le_trans ht1 h2, hc.lapsed.trans h3 ht1 h2, pre ++ l, ?_, ?_, ?_, ?_, ?_⟩
      · rw [hr]; simp
      · rw [List.nodup_append]
        refine ⟨hpn, hl1, ?_⟩
        rintro a ha b hb rfl
        rw [hpre a ha] at hb
        exact hnd.1 (hl2 _ hb)
      · intro x hx
        rcases List.mem_append.1 hx with hx | hx
        · simp [hpre x hx]
        · simp [hl2 x hx]
      · intro x hx e he hxl hm
        rw [List.mem_append, not_or] at hxl
        rcases List.mem_cons.1 hx with rfl | hx
        · obtain ⟨a, b⟩ := hno hxl.1 hm e he
          exact ⟨_, ⟨s.tick, Nat.le_refl _, by omega, rfl⟩, b⟩
        · obtain ⟨t, a, b⟩ := hl3 x hx e (by rw [hv x hx]; exact he) hxl.2 hm
          exact ⟨t, hrd t a, b⟩
      · intro x hx
        rcases List.mem_append.1 hx with hx | hx
        · have hxk := hpre x hx
          subst hxk
          obtain ⟨hm, hh⟩ := hyes hx
          refine ⟨hm, fun e he => (hh e he).imp id ?_⟩
          rintro ⟨a, b⟩
          exact ⟨_, ⟨s.tick, Nat.le_refl _, by omega, rfl⟩, b⟩
        · obtain ⟨hm, hh⟩ := hl4 x hx
          refine ⟨hm, fun e he => (hh e (by rw [hv x (hl2 x hx)]; exact he)).imp id ?_⟩
          rintro ⟨t, a, b⟩
          exact ⟨t, hrd t a, b⟩
    cases b
    · have hs := hc.same rfl
      simp only [Bool.false_eq_true, if_false]
      obtain ⟨bm, hm⟩ := hpat k
      rw [hm]
      cases bm
      · exact step [] _ (by simp) (by simp) (by simp) (by simp [hm]) (by simp)
      · refine step [k] _ (by simp) (by simp) (by simp) (by simp) fun _ => ⟨hm, fun e he => ?_⟩
        rcases hE : s.db.exp.get k with _ | d
        · left
          rcases hdk : s.db.dict.get k with _ | v
          · rw [Db.view_none hdk] at he; cases he
          · rw [Db.view_some hdk, hE] at he; cases he; rfl
        · right
          refine ⟨by have := hc.tickE d hE; omega, ?_⟩
          rintro ⟨d', hd', hlt⟩
          rcases hdk : s.db.dict.get k with _ | v
          · rw [Db.view_none hdk] at he; cases he
          · rw [Db.view_some hdk, hE] at he; cases he; cases hd'
            exact Bool.noConfusion (hc.iff.2 ⟨d, hE, hlt⟩)
    · simp only [if_true]
      refine step [] _ (by simp) (by simp) (by simp) ?_ (by simp)
      intro _ _ e he
      obtain ⟨d, hd, hlt⟩ := hc.iff.1 rfl
      refine ⟨by have := hc.tickE d hd; omega, d, ?_, hlt⟩
      rcases hdk : s.db.dict.get k with _ | v
      · rw [Db.view_none hdk] at he; cases he
      · rw [Db.view_some hdk] at he; cases he; exact hd

/-- KEYS with any pattern on which the matcher does not panic reports exactly the unexpired keys
the matcher accepts, each once. -/
theorem C24_keys_matcher (c : Cfg) (env : Env) (s : St) (n p : Slice) (hI : s.db.Inv)
    (hp : ∀ x, ∃ b, pattenMatch (str p) x = .ok b) :
    Runs env (command c b!"keys" [n, p]) s fun r s' => Lapsed env s s' ∧
      ∃ l, r = replyBulks (l.map some) ∧ KeysReported env s s' (fun x => pattenMatch (str p) x = .ok true) l := by
  simp only [command_keys]
  simp only [keysKey, Runs, wp_bind]
  refine Wp.mono (wp_dictKeys env s hI) ?_
  rintro ks s1 ⟨h1, h2, h3, h4⟩
  refine Wp.mono (wp_keysLoop c env (str p) hp ks [] s1 (by rw [h1]; exact hI) h3) ?_
  rintro r s' ⟨g1, g2, g3, l, rfl, hl1, hl2, hl3, hl4⟩
  have hrd : ∀ t, Reading env s1 s' t → Reading env s s' t := fun t h => h.mono h2 (Nat.le_refl _)
  simp only [h1] at hl3 hl4
  refine ⟨g1, ?_, l, by simp [rArr, Function.comp_def], hl1, ?_, ?_⟩
  · refine Lapsed.trans (fun x => .inl (by rw [h1])) g3 h2 g2
  · intro x hx
    obtain ⟨v, hv⟩ := Option.isSome_iff_exists.1 ((h4 x).1 (hl2 x hx))
    obtain ⟨hm, hh⟩ := hl4 x hx
    refine ⟨hm, _, Db.view_some hv, ?_⟩
    refine (hh _ (Db.view_some hv)).imp id ?_
    rintro ⟨t, a, b⟩; exact ⟨t, hrd t a, b⟩
  · intro x e he hm hxl
    have hx : x ∈ ks := by
      rw [h4]
      rcases hdk : s.db.dict.get x with _ | v
      · rw [Db.view_none hdk] at he; cases he
      · rfl
    obtain ⟨t, a, b⟩ := hl3 x hx e he hxl hm
    exact ⟨t, hrd t a, b⟩

/-- C24 for patterns covered by `C25_glob_partial`.  Missing: patterns on which the matcher
deviates from the glob language or panics. -/
theorem C24_keys_partial (c : Cfg) (env : Env) (s : St) (n p : Slice) (hI : s.db.Inv) (ts : List Tok)
    (hts : str p = render ts) (hok : ∀ t ∈ ts, t.Ok) (hs : StarsBeforeLit ts) :
    Runs env (command c b!"keys" [n, p]) s fun r s' => Lapsed env s s' ∧
      ∃ l, r = replyBulks (l.map some) ∧ KeysReported env s s' (Matches ts) l := by
  simp only [command_keys]
  have hm : ∀ x, pattenMatch (str p) x = .ok true ↔ Matches ts x := by
    intro x
    obtain ⟨b, h1, h2⟩ := C25_glob_partial ts hok hs x
    rw [hts, h1, ← h2]; simp
  refine Runs.mono (C24_keys_matcher c env s n p hI fun x => ?_) ?_
  · obtain ⟨b, h1, _⟩ := C25_glob_partial ts hok hs x
    exact ⟨b, by rw [hts]; exact h1⟩
  · rintro r s' ⟨h1, l, h2, h3⟩
    simp only [hm] at h3
    exact ⟨h1, l, h2, h3⟩

/-- For a standing clock: the reply enumerates exactly the present, unexpired, matching keys. -/
theorem C24_keys_exact_partial (c : Cfg) (env : Env) (s : St) (n p : Slice) (hI : s.db.Inv) (ts : List Tok)
    (hts : str p = render ts) (hok : ∀ t ∈ ts, t.Ok) (hs : StarsBeforeLit ts) (t : Int) (ht : ∀ i, env.clock i = t) :
    Runs env (command c b!"keys" [n, p]) s fun r _ =>
      ∃ l, r = replyBulks (l.map some) ∧
        Enumerates l fun x => ∃ e, s.db.view x = some e ∧ ¬ e.expiredAt t ∧ Matches ts x := by
  simp only [command_keys]
  refine Runs.mono (C24_keys_partial c env s n p hI ts hts hok hs) ?_
  rintro r s' ⟨_, l, rfl, hl⟩
  refine ⟨l, rfl, hl.nodup, fun x => ⟨fun hx => ?_, ?_⟩⟩
  · obtain ⟨hm, e, he, h | ⟨_, ⟨i, _, _, rfl⟩, h⟩⟩ := hl.sound x hx
    · exact ⟨e, he, (by rintro ⟨d, hd, _⟩; rw [h] at hd; cases hd), hm⟩
    · rw [ht] at h; exact ⟨e, he, h, hm⟩
  · rintro ⟨e, he, hne, hm⟩
    apply Classical.byContradiction
    intro hxl
    obtain ⟨_, ⟨i, _, _, rfl⟩, h⟩ := hl.complete x e he hm hxl
    rw [ht] at h; exact hne h

/-- `KEYS *` lists every unexpired key, whatever the keys look like. -/
theorem C24_keys_star (c : Cfg) (env : Env) (s : St) (n : Slice) (hI : s.db.Inv) (t : Int) (ht : ∀ i, env.clock i = t) :
    Runs env (command c b!"keys" [n, some b!"*"]) s fun r _ =>
      ∃ l, r = replyBulks (l.map some) ∧ Enumerates l fun x => ∃ e, s.db.view x = some e ∧ ¬ e.expiredAt t := by
  simp only [command_keys]
  refine Runs.mono (C24_keys_exact_partial c env s n (some b!"*") hI [.star] rfl (by simp [Tok.Ok])
    (by simp [StarsBeforeLit]) t ht) ?_
  rintro r _ ⟨l, h1, h2, h3⟩
  refine ⟨l, h1, h2, fun x => ?_⟩
  rw [h3]
  exact ⟨fun ⟨e, a, b, _⟩ => ⟨e, a, b⟩, fun ⟨e, a, b⟩ => ⟨e, a, b, x, [], by simp, rfl⟩⟩

/-- C24, the full statement. -/
def C24_Statement : Prop :=
  ∀ (c : Cfg) (env : Env) (s : St) (n p : Slice) (ts : List Tok) (t : Int), s.db.Inv → (∀ i, env.clock i = t) →
    str p = render ts → (∀ t ∈ ts, t.Ok) →
    Runs env (command c b!"keys" [n, p]) s fun r _ =>
      ∃ l, r = replyBulks (l.map some) ∧
        Enumerates l fun x => ∃ e, s.db.view x = some e ∧ ¬ e.expiredAt t ∧ Matches ts x

/-- `KEYS *?` does not list the key `a`. -/
theorem C24_refuted : ¬ C24_Statement := by
  intro h
  have h1 := h Witness.cfg Witness.env (Witness.st [(b!"a", .str none, none)]) none (some b!"*?") [.star, .any] 100
    (Witness.st_inv _ (by decide)) (fun _ => rfl) rfl (by simp [Tok.Ok])
  obtain ⟨s', _, l, hr, hl⟩ := Witness.reply_of_runs (d := rArr []) h1 (by decide +kernel)
  have : l = [] := by cases l <;> simp_all [rArr]
  subst this
  have hv : (Witness.st [(b!"a", .str none, none)]).db.dict.get b!"a" = some (.str none) := by decide +kernel
  have he : (Witness.st [(b!"a", .str none, none)]).db.exp.get b!"a" = none := by decide +kernel
  have := (hl.2 b!"a").2 ⟨_, Db.view_some hv, (by rintro ⟨d, hd, _⟩; rw [he] at hd; cases hd),
    [], b!"a", rfl, 97, [], rfl, rfl⟩
  cases this

example : Witness.reply (command Witness.cfg b!"keys" [none, some b!"k*"])
    (Witness.st [(b!"k", .set [b!"m"], none), (b!"kj", .set [b!"m"], some 5), (b!"ki", .str none, some 500),
      (b!"x", .str none, none)]) = .ok (replyBulks [some b!"k", some b!"ki"]) := by decide +kernel

end GRedis
