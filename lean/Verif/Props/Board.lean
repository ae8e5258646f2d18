import Verif.Props.Shuttle
import Verif.Props.Pool
/-
C103: members that concurrent connections move between sets with SMOVE: who has been told that it moved a member is the only one.
-/
namespace GRedis
open Prog Spec

namespace Spec

instance decFoldsSmove (b : Bytes) : Decidable (Folds b b!"smove") := decidable_of_iff _ (toLower_folds (by decide))

/-- The command moves the member `m` away from the set at `key`. -/
def TakesAway (key m : Bytes) : List Slice → Bool
  | [n, a, _, x] => Folds (str n) b!"smove" ∧ str a = key ∧ str x = m
  | _ => false

/-- The command moves the member `m` to the set at `key`. -/
def BringsTo (key m : Bytes) : List Slice → Bool
  | [n, _, b, x] => Folds (str n) b!"smove" ∧ str b = key ∧ str x = m
  | _ => false

/-- The client has been told that it moved `m` away from `key`. -/
def Took (key m : Bytes) : List Slice × Data → Bool
  | (cmd, .item (.int 1)) => TakesAway key m cmd
  | _ => false

/-- The client has been told that it moved `m` to `key`. -/
def Brought (key m : Bytes) : List Slice × Data → Bool
  | (cmd, .item (.int 1)) => BringsTo key m cmd
  | _ => false

/-- The commands of those who work with the sets at the keys `ks`: SMOVE between two of them, SADD and SREM of one member at one of
them, and commands that leave all of them as they are. -/
inductive Hauling (ks : List Bytes) : List Slice → Prop
  | one {cmd : List Slice} : (∀ k ∈ ks, Locking k cmd) → Hauling ks cmd
  | move {n a b x : Slice} : Folds (str n) b!"smove" → str a ∈ ks → str b ∈ ks → Hauling ks [n, a, b, x]

/-- The member is in at most one of the sets. -/
def Single (σ : Store) (ks : List Bytes) (m : Bytes) : Prop := ∀ k ∈ ks, ∀ k' ∈ ks, InSet σ k m → InSet σ k' m → k = k'

end Spec

section
variable {c : Cfg} {env : Env} {H : Int}

/-- At the keys there are sets, or nothing, and they last. -/
structure Columns (H : Int) (σ : Store) (ks : List Bytes) : Prop where
  set : ∀ k ∈ ks, ∃ M, asSet (σ k) = some M
  last : ∀ k ∈ ks, ∀ t, ttlOf (σ k) = some t → H ≤ t

theorem took_le {key m : Bytes} {cmd : List Slice} {d : Data} : Took key m (cmd, d) = true → TakesAway key m cmd = true := by
  unfold Took
  split
  · next he => cases he; exact id
  · intro h; cases h

theorem brought_le {key m : Bytes} {cmd : List Slice} {d : Data} : Brought key m (cmd, d) = true → BringsTo key m cmd = true := by
  unfold Brought
  split
  · next he => cases he; exact id
  · intro h; cases h

/-- A command that leaves a key alone does not name it, unless it only reads. -/
theorem bystander_names {key : Bytes} {n : Slice} {args : List Slice} (h : Bystander key (n :: args)) {w : Bytes} {ka : KeyArgs}
    (hw : (w, ka) ∈ commands) (hr : w ∉ readers) (hn : Folds (str n) w) : ¬ ka.Names args key := by
  have asc : ∀ w ∈ commands.map (·.1), ∀ c ∈ w, c < 128 := by decide +kernel
  cases h with
  | @reads _ _ w' hw' hn' =>
    have hc : w' ∈ commands.map (·.1) := (by decide +kernel : ∀ w ∈ readers, w ∈ commands.map (·.1)) w' hw'
    have e := not_both hn hn' (asc w (List.mem_map_of_mem (f := (·.1)) hw)) (asc w' hc)
    subst e
    exact absurd hw' hr
  | away _ ha => exact ha _ _ hw hn

theorem locking_stays {key m : Bytes} {cmd : List Slice} {d : Data} (h : Locking key cmd) :
    Took key m (cmd, d) = false ∧ Brought key m (cmd, d) = false := by
  have hno : ∀ n a b x : Slice, cmd = [n, a, b, x] → Folds (str n) b!"smove" → ¬ (KeyArgs.firstTwo).Names [a, b, x] key := by
    rintro n a b x rfl hn
    cases h with
    | bystander hb => exact bystander_names hb (w := b!"smove") (by decide +kernel) (by decide +kernel) hn
  constructor
  · cases ht : Took key m (cmd, d) with
    | false => rfl
    | true =>
      have := took_le ht
      unfold TakesAway at this
      split at this
      · next n a b x => simp at this; exact absurd (by simp [KeyArgs.Names, this.2.1]) (hno _ _ _ _ rfl this.1)
      · cases this
  · cases ht : Brought key m (cmd, d) with
    | false => rfl
    | true =>
      have := brought_le ht
      unfold BringsTo at this
      split at this
      · next n a b x => simp at this; exact absurd (by simp [KeyArgs.Names, this.2.1]) (hno _ _ _ _ rfl this.1)
      · cases this

/-- What SMOVE does: the member changes its place and the client is told so, or nothing changes. -/
theorem haul_step {env' : Env} {s s' : Srv} {ks : List Bytes} {n a b x : Slice} {d : Data} (hI : s.Inv) (hclk : ∀ i, env'.clock i ≤ H)
    (hC : Columns H (s.view s.cur) ks) (hn : Folds (str n) b!"smove") (ha : str a ∈ ks) (hb : str b ∈ ks)
    (hr : execCommand c env' s [n, a, b, x] = .ok (d, s')) :
    s'.cur = s.cur ∧ Columns H (s'.view s.cur) ks ∧
      ((d = replyInt 1 ∧ InSet (s.view s.cur) (str a) (str x) ∧
        ∀ k y, InSet (s'.view s.cur) k y ↔ (y = str x ∧ k = str b) ∨ (InSet (s.view s.cur) k y ∧ ¬ (y = str x ∧ k = str a))) ∨
       (d ≠ replyInt 1 ∧ ∀ k y, InSet (s'.view s.cur) k y ↔ InSet (s.view s.cur) k y)) := by
  obtain ⟨db, st, h1, h2, h3, h4, h5⟩ := exec_command (w := b!"smove") (ka := .firstTwo) (by decide +kernel) hn hr
  have hdb : db.Inv := hI db (List.mem_of_getElem? h1)
  have hsame : ∀ k ∈ ks, ∀ t, t ≤ H → (s.view s.cur).reap t k = s.view s.cur := fun k hk t ht =>
    reap_same fun d hd => Int.le_trans ht (hC.last k hk d hd)
  obtain ⟨r, st', h6, _, t, ht, h7⟩ := runs_iff.1 (smove_actual c env' ⟨db, s.tick⟩ n a b x hdb)
  rw [h2] at h6; cases h6
  have hlive : live env' ⟨db, s.tick⟩ (str a) = s.view s.cur := by
    show db.view.reap _ _ = _
    rw [← h4]; exact hsame _ ha _ (hclk _)
  have htH : t ≤ H := by rcases ht with rfl | rfl <;> exact hclk _
  rw [hlive, hsame _ hb t htH, ← h5] at h7
  obtain ⟨σ, hσ⟩ : ∃ σ, s.view s.cur = σ := ⟨_, rfl⟩
  obtain ⟨τ, hτ⟩ : ∃ τ, s'.view s.cur = τ := ⟨_, rfl⟩
  simp only [hσ, hτ] at hC h7 ⊢
  refine ⟨h3, ?_⟩
  have hstay : τ = σ → Columns H τ ks ∧ ∀ k y, InSet τ k y ↔ InSet σ k y := by rintro rfl; exact ⟨hC, fun _ _ => Iff.rfl⟩
  have hput : ∀ m ttl, σ (str a) = some ⟨.set m, ttl⟩ → τ = σ.putSet (str a) m ttl → Columns H τ ks ∧ ∀ k y, InSet τ k y ↔ InSet σ k y := by
    rintro m ttl he rfl
    refine ⟨⟨fun k hk => ?_, fun k hk t ht => ?_⟩, fun k y => ?_⟩
    · by_cases hka : k = str a
      · subst hka; exact ⟨_, asSet_putSet⟩
      · rw [Store.putSet, Store.put, if_neg hka]; exact hC.set k hk
    · by_cases hka : k = str a
      · subst hka; exact hC.last _ hk t (by rw [he, ← ttl_putSet ht]; rfl)
      · rw [Store.putSet, Store.put, if_neg hka] at ht; exact hC.last k hk t ht
    · rw [inSet_putSet]
      split
      · next e => subst e; exact (inSet_some he y).symm
      · exact Iff.rfl
  have ne : ∀ r : Data, r = replyInt 0 ∨ IsErr r → r ≠ replyInt 1 := by
    rintro r (rfl | ⟨_, rfl⟩) <;> exact nofun
  rcases h7 with h7 | ⟨_, hr0, h8⟩
  · obtain ⟨Ma, hMa⟩ := hC.set _ ha
    obtain ⟨Mb, hMb⟩ := hC.set _ hb
    rcases asSet_inv hMa with ⟨he, rfl⟩ | ⟨ttl, he⟩
    · simp only [SMoveOK, he] at h7
      obtain ⟨h8, h9⟩ := hstay h7.2
      exact ⟨h8, .inr ⟨ne _ (.inl h7.1), h9⟩⟩
    · rcases asSet_inv hMb with ⟨he', rfl⟩ | ⟨ttl', he'⟩
      · simp only [SMoveOK, he, he'] at h7
        obtain ⟨h8, h9⟩ : Columns H τ ks ∧ ∀ k y, InSet τ k y ↔ InSet σ k y := by
          rcases h7.2 with h | h
          · exact hstay h
          · exact hput _ _ he h
        exact ⟨h8, .inr ⟨ne _ (.inl h7.1), h9⟩⟩
      · simp only [SMoveOK, he, he'] at h7
        by_cases hx : Ma (str x)
        · obtain ⟨h8, h9, h10⟩ := h7.1 hx
          have hin : InSet σ (str a) (str x) := (inSet_some he _).2 hx
          by_cases hab : str a = str b
          · obtain ⟨h11, h12⟩ := hstay (h10 hab)
            refine ⟨h11, .inl ⟨h8, hin, fun k y => ?_⟩⟩
            rw [h12]
            by_cases hy : y = str x ∧ k = str a
            · obtain ⟨rfl, rfl⟩ := hy
              exact ⟨fun _ => .inl ⟨rfl, hab⟩, fun _ => hin⟩
            · rw [← hab]; simp [hy]
          · have hτ' := h9 hab
            have hτb : τ (str b) = some ⟨.set fun y => Mb y ∨ y = str x, ttl'⟩ := by rw [hτ', Store.put_self]
            have hτo : ∀ k, k ≠ str b → τ k = σ.putSet (str a) (fun y => Ma y ∧ y ≠ str x) ttl k := fun k hk => by
              rw [hτ', Store.put]; exact if_neg hk
            refine ⟨⟨fun k hk => ?_, fun k hk t ht => ?_⟩, .inl ⟨h8, hin, fun k y => ?_⟩⟩
            · by_cases hkb : k = str b
              · subst hkb; exact ⟨_, by rw [hτb]; rfl⟩
              · rw [hτo k hkb]
                by_cases hka : k = str a
                · subst hka; exact ⟨_, asSet_putSet⟩
                · rw [Store.putSet, Store.put, if_neg hka]; exact hC.set k hk
            · by_cases hkb : k = str b
              · subst hkb; rw [hτb] at ht; exact hC.last _ hb t (by rw [he']; exact ht)
              · rw [hτo k hkb] at ht
                by_cases hka : k = str a
                · subst hka; exact hC.last _ hk t (by rw [he, ← ttl_putSet ht]; rfl)
                · rw [Store.putSet, Store.put, if_neg hka] at ht; exact hC.last k hk t ht
            · rw [hτ', inSet_put, inSet_putSet]
              by_cases hkb : k = str b
              · subst hkb
                rw [if_pos rfl, inSet_some he']
                have : ¬ str b = str a := fun h => hab h.symm
                simp only [and_true, this, and_false, not_false_eq_true]
                exact Or.comm
              · rw [if_neg hkb]
                by_cases hka : k = str a
                · subst hka
                  rw [if_pos rfl, inSet_some he]
                  simp [hkb]
                · rw [if_neg hka]; simp [hkb, hka]
        · obtain ⟨h8, h9⟩ := h7.2 hx
          obtain ⟨h10, h11⟩ := hput _ _ he h9
          exact ⟨h10, .inr ⟨ne _ (.inl h8), h11⟩⟩
  · obtain ⟨h9, h10⟩ := hstay h8
    exact ⟨h9, .inr ⟨ne _ (.inl hr0), h10⟩⟩

/-- What one command does to a member of the sets. -/
theorem board_step {env' : Env} {s s' : Srv} {ks : List Bytes} {cmd : List Slice} {d : Data} (hI : s.Inv) (hclk : ∀ i, env'.clock i ≤ H)
    (hne : ks ≠ []) (hC : Columns H (s.view s.cur) ks) (hq : Hauling ks cmd) (m : Bytes) (hr : execCommand c env' s cmd = .ok (d, s')) :
    s'.cur = s.cur ∧ Columns H (s'.view s.cur) ks ∧
      (∀ k ∈ ks, bit (InSet (s'.view s.cur) k m) + (Took k m (cmd, d)).toNat + (Freed k m (cmd, d)).toNat ≤
        bit (InSet (s.view s.cur) k m) + (Brought k m (cmd, d)).toNat + (Won k m (cmd, d)).toNat) ∧
      (Single (s.view s.cur) ks m → (∀ k ∈ ks, Acquires k m cmd = false) → Single (s'.view s.cur) ks m ∧
        (∀ k ∈ ks, bit (InSet (s'.view s.cur) k m) + (Took k m (cmd, d)).toNat + (Freed k m (cmd, d)).toNat =
          bit (InSet (s.view s.cur) k m) + (Brought k m (cmd, d)).toNat) ∧
        ((∀ k ∈ ks, Releases k m cmd = false) → (∃ k ∈ ks, InSet (s.view s.cur) k m) → ∃ k ∈ ks, InSet (s'.view s.cur) k m)) := by
  cases hq with
  | one hq =>
    have key : ∀ k ∈ ks, s'.cur = s.cur ∧ (∃ M', asSet (s'.view s.cur k) = some M') ∧ (∀ t, ttlOf (s'.view s.cur k) = some t → H ≤ t) ∧
        bit (InSet (s.view s.cur) k m) + (Won k m (cmd, d)).toNat = bit (InSet (s'.view s.cur) k m) + (Freed k m (cmd, d)).toNat ∧
        (Releases k m cmd = false → InSet (s.view s.cur) k m → InSet (s'.view s.cur) k m) := by
      intro k hk
      obtain ⟨M, hM⟩ := hC.set k hk
      obtain ⟨h1, M', h2, h3, h4, _, h6⟩ := lock_step (m := m) hI hclk hM (hC.last k hk) (hq k hk) hr
      have e1 : InSet (s.view s.cur) k m = M m := by simp [InSet, hM]
      have e2 : InSet (s'.view s.cur) k m = M' m := by simp [InSet, h2]
      rw [e1, e2]
      exact ⟨h1, ⟨M', h2⟩, h3, h4, h6⟩
    obtain ⟨k0, hk0⟩ := List.exists_mem_of_ne_nil ks hne
    refine ⟨(key k0 hk0).1, ⟨fun k hk => (key k hk).2.1, fun k hk => (key k hk).2.2.1⟩, fun k hk => ?_, fun hs hacq => ⟨?_, fun k hk => ?_, ?_⟩⟩
    · obtain ⟨e1, e2⟩ := locking_stays (m := m) (d := d) (hq k hk)
      have := (key k hk).2.2.2.1
      rw [e1, e2]; simp only [Bool.toNat_false]; omega
    · have back : ∀ k ∈ ks, InSet (s'.view s.cur) k m → InSet (s.view s.cur) k m := by
        intro k hk hin
        have h1 := (key k hk).2.2.2.1
        have h2 : Won k m (cmd, d) = false := by
          cases hw : Won k m (cmd, d) with
          | false => rfl
          | true => have := won_le hw; rw [hacq k hk] at this; cases this
        rw [h2, bit_true hin] at h1
        apply Classical.byContradiction
        intro hno
        rw [bit_false hno] at h1
        simp at h1
        omega
      exact fun k hk k' hk' h1 h2 => hs k hk k' hk' (back k hk h1) (back k' hk' h2)
    · obtain ⟨e1, e2⟩ := locking_stays (m := m) (d := d) (hq k hk)
      have h1 := (key k hk).2.2.2.1
      have h2 : Won k m (cmd, d) = false := by
        cases hw : Won k m (cmd, d) with
        | false => rfl
        | true => have := won_le hw; rw [hacq k hk] at this; cases this
      rw [e1, e2]; rw [h2] at h1; simp only [Bool.toNat_false] at h1 ⊢; omega
    · rintro hrel ⟨k, hk, hin⟩
      exact ⟨k, hk, (key k hk).2.2.2.2 (hrel k hk) hin⟩
  | @move n a b x hn ha hb =>
    obtain ⟨h1, h2, h3⟩ := haul_step hI hclk hC hn ha hb hr
    have f1 : ∀ k, Won k m ([n, a, b, x], d) = false := fun k => by unfold Won; split <;> first | rfl | (next he => cases he; rfl)
    have f2 : ∀ k, Freed k m ([n, a, b, x], d) = false := fun k => by unfold Freed; split <;> first | rfl | (next he => cases he; rfl)
    refine ⟨h1, h2, ?_⟩
    rcases h3 with ⟨rfl, hin, h4⟩ | ⟨hd, h4⟩
    · have t1 : ∀ k, Took k m ([n, a, b, x], replyInt 1) = decide (str a = k ∧ str x = m) := fun k => by simp [Took, replyInt, TakesAway, hn]
      have t2 : ∀ k, Brought k m ([n, a, b, x], replyInt 1) = decide (str b = k ∧ str x = m) := fun k => by simp [Brought, replyInt, BringsTo, hn]
      refine ⟨fun k hk => ?_, fun hs _ => ⟨?_, fun k hk => ?_, ?_⟩⟩
      · rw [f1, f2, t1, t2]
        have h5 := h4 k m
        by_cases hx : str x = m
        · subst hx
          by_cases hka : str a = k
          · subst hka
            rw [bit_true hin]
            by_cases hkb : str b = str a
            · simp [hkb, bit_le]
            · rw [bit_false (fun h => by rw [h5] at h; rcases h with h | h; exact hkb h.2.symm; exact h.2 ⟨rfl, rfl⟩)]; simp [hkb]
          · by_cases hkb : str b = k
            · have := bit_le (InSet (s'.view s.cur) k (str x))
              simp [hka, hkb]; omega
            · rw [show InSet (s'.view s.cur) k (str x) = InSet (s.view s.cur) k (str x) from propext (h5.trans (by simp [Ne.symm hka, Ne.symm hkb]))]
              simp [hka, hkb]
        · rw [show InSet (s'.view s.cur) k m = InSet (s.view s.cur) k m from propext (h5.trans (by simp [Ne.symm hx]))]
          simp [hx]
      · by_cases hx : m = str x
        · subst hx
          have only : ∀ k ∈ ks, InSet (s'.view s.cur) k (str x) → k = str b := by
            intro k hk h
            rw [h4] at h
            rcases h with h | ⟨h, hno⟩
            · exact h.2
            · exact absurd ⟨rfl, hs k hk _ ha h hin⟩ hno
          exact fun k hk k' hk' e1 e2 => (only k hk e1).trans (only k' hk' e2).symm
        · intro k hk k' hk' e1 e2
          rw [h4] at e1 e2
          simp only [hx, false_and, false_or, not_false_eq_true, and_true] at e1 e2
          exact hs k hk k' hk' e1 e2
      · rw [f2, t1, t2]
        have h5 := h4 k m
        by_cases hx : str x = m
        · subst hx
          by_cases hka : str a = k
          · subst hka
            rw [bit_true hin]
            by_cases hkb : str b = str a
            · rw [bit_true (h5.2 (.inl ⟨rfl, hkb.symm⟩))]; simp [hkb]
            · rw [bit_false (fun h => by rw [h5] at h; rcases h with h | h; exact hkb h.2.symm; exact h.2 ⟨rfl, rfl⟩)]; simp [hkb]
          · by_cases hkb : str b = k
            · rw [bit_true (h5.2 (.inl ⟨rfl, hkb.symm⟩)), bit_false (fun h => hka (hs _ ha k hk hin h))]
              simp [hka, hkb]
            · rw [show InSet (s'.view s.cur) k (str x) = InSet (s.view s.cur) k (str x) from propext (h5.trans (by simp [Ne.symm hka, Ne.symm hkb]))]
              simp [hka, hkb]
        · rw [show InSet (s'.view s.cur) k m = InSet (s.view s.cur) k m from propext (h5.trans (by simp [Ne.symm hx]))]
          simp [hx]
      · rintro _ ⟨k, hk, h⟩
        by_cases hx : m = str x
        · exact ⟨str b, hb, (h4 _ _).2 (.inl ⟨hx, rfl⟩)⟩
        · exact ⟨k, hk, (h4 _ _).2 (.inr ⟨h, fun h => hx h.1⟩)⟩
    · have t1 : ∀ k, Took k m ([n, a, b, x], d) = false := fun k => by
        unfold Took; split
        · next he => cases he; exact absurd rfl hd
        · rfl
      have t2 : ∀ k, Brought k m ([n, a, b, x], d) = false := fun k => by
        unfold Brought; split
        · next he => cases he; exact absurd rfl hd
        · rfl
      have e : ∀ k, InSet (s'.view s.cur) k m = InSet (s.view s.cur) k m := fun k => propext (h4 k m)
      refine ⟨fun k _ => ?_, fun hs _ => ⟨?_, fun k _ => ?_, ?_⟩⟩
      · rw [f1, f2, t1, t2, e]; simp
      · unfold Single; simp only [e]; exact hs
      · rw [f2, t1, t2, e]; simp
      · simp only [e]; exact fun _ h => h

/-- Commands executed one after the other. -/
theorem board_run {s s' : Srv} {ks : List Bytes} {l : List Entry} (hI : s.Inv) (hclk : ∀ i, env.clock i ≤ H) (hne : ks ≠ [])
    (hC : Columns H (s.view s.cur) ks) (hq : ∀ x ∈ l, Hauling ks x.2.1) (m : Bytes) (h : InTurn c env s l s') :
    s'.Inv ∧ s'.cur = s.cur ∧ Columns H (s'.view s.cur) ks ∧
      (∀ k ∈ ks, bit (InSet (s'.view s.cur) k m) + (l.map (·.2)).countP (Took k m) + (l.map (·.2)).countP (Freed k m) ≤
        bit (InSet (s.view s.cur) k m) + (l.map (·.2)).countP (Brought k m) + (l.map (·.2)).countP (Won k m)) ∧
      (Single (s.view s.cur) ks m → (∀ x ∈ l, ∀ k ∈ ks, Acquires k m x.2.1 = false) → Single (s'.view s.cur) ks m ∧
        (∀ k ∈ ks, bit (InSet (s'.view s.cur) k m) + (l.map (·.2)).countP (Took k m) + (l.map (·.2)).countP (Freed k m) =
          bit (InSet (s.view s.cur) k m) + (l.map (·.2)).countP (Brought k m)) ∧
        ((∀ x ∈ l, ∀ k ∈ ks, Releases k m x.2.1 = false) → (∃ k ∈ ks, InSet (s.view s.cur) k m) → ∃ k ∈ ks, InSet (s'.view s.cur) k m)) := by
  induction h with
  | refl => exact ⟨hI, rfl, hC, fun k _ => by simp, fun hs _ => ⟨hs, fun k _ => by simp, fun _ h => h⟩⟩
  | @step l s1 s2 i cmd d env' _ hfrom hr ih =>
    obtain ⟨hI1, hc1, hC1, h1, h2⟩ := ih fun x hx => hq x (List.mem_append_left _ hx)
    rw [← hc1] at hC1
    have hclk' : ∀ i, env'.clock i ≤ H := fun i => by obtain ⟨j, hj⟩ := hfrom.clock i; rw [hj]; exact hclk j
    have hq1 : Hauling ks cmd := hq (i, cmd, d) (by simp)
    obtain ⟨hc2, hC2, h3, h4⟩ := board_step hI1 hclk' hne hC1 hq1 m hr
    rw [hc1] at hC2 h3 h4
    have t1 : ∀ b : Bool, (if b = true then 1 else 0) = b.toNat := by decide
    refine ⟨exec_inv hI1 hr, hc2.trans hc1, hC2, fun k hk => ?_, fun hs hacq => ?_⟩
    · have e1 := h1 k hk
      have e2 := h3 k hk
      simp only [List.map_append, List.map_cons, List.map_nil, List.countP_append, List.countP_singleton, t1] at e1 ⊢
      omega
    · obtain ⟨g1, g2, g3⟩ := h2 hs fun x hx => hacq x (List.mem_append_left _ hx)
      obtain ⟨k1, k2, k3⟩ := h4 g1 fun k hk => hacq (i, cmd, d) (by simp) k hk
      refine ⟨k1, fun k hk => ?_, fun hrel hin => k3 (fun k hk => hrel (i, cmd, d) (by simp) k hk) (g3 (fun x hx => hrel x (List.mem_append_left _ hx)) hin)⟩
      have e1 := g2 k hk
      have e2 := k2 k hk
      simp only [List.map_append, List.map_cons, List.map_nil, List.countP_append, List.countP_singleton, t1] at e1 ⊢
      omega

theorem hauling_tame {ks : List Bytes} {cmd : List Slice} (h : Hauling ks cmd) (hb : (∀ k ∈ ks, Bystander k cmd) → Tame c env H cmd) :
    Tame c env H cmd := by
  cases h with
  | one hq =>
    by_cases hall : ∀ k ∈ ks, Bystander k cmd
    · exact hb hall
    · simp only [Classical.not_forall] at hall
      obtain ⟨k, hk, hn⟩ := hall
      exact locking_tame (hq k hk) fun h => absurd h hn
  | move hn _ _ =>
    have := (toLower_folds (w := b!"smove") (by decide)).2 hn
    exact tame_of ⟨by rw [this]; decide, by rw [this]; simp⟩ (by rw [this]; decide)

/-- **C103.**  Connections move members between some sets with SMOVE, and add and remove members, however their goroutines interleave.  At
every moment, no more of them have been told that they moved `m` away from `k`, or removed it there, than there are reasons for `m` to have
been at `k`: it was there, somebody called for it to be moved there, or to be added there. -/
theorem C103_claims {s : Srv} {n : Nat} {es : List Ev} {g : Hub} {ks : List Bytes} (hI : s.Inv) (hclk : ∀ i, env.clock i ≤ H)
    (hcur : s.cur < s.dbs.length) (hlast : ∀ db ∈ s.dbs, ∀ k t, db.exp.get k = some t → H ≤ t)
    (hC : ∀ k ∈ ks, ∃ M, asSet (s.view s.cur k) = some M)
    (hq : ∀ i cmd, .call i cmd ∈ es → Hauling ks cmd ∧ ((∀ k ∈ ks, Bystander k cmd) → Tame c env H cmd))
    (h : HubRun c env (Hub.start s n) es g) (m k : Bytes) (hk : k ∈ ks) :
    (allExchanges n es).countP (Took k m) + (allExchanges n es).countP (Freed k m) ≤
      bit (InSet (s.view s.cur) k m) + (allCalls n es).countP (BringsTo k m) + (allCalls n es).countP (Acquires k m) := by
  obtain ⟨l, s', h1, h2, _, _⟩ := C69_linearizable_partial hclk hcur hlast (fun i cmd hc => hauling_tame (hq i cmd hc).1 (hq i cmd hc).2) h
  obtain ⟨_, _, _, h7, _⟩ := board_run hI hclk (List.ne_nil_of_mem hk) ⟨hC, fun k _ t ht => view_lasts hlast ht⟩
    (fun x hx => (hq x.1 x.2.1 (explains_called h2 hx)).1) m h1
  have h7 := h7 k hk
  obtain ⟨p, hp, hp1, hp2⟩ := counted h h2
  rw [← hp.countP_eq, ← hp.countP_eq, ← hp.countP_eq, ← hp.countP_eq] at h7
  have l1 := hp1.countP_le (p := Took k m)
  have l2 := hp1.countP_le (p := Freed k m)
  have l3 := hp2.countP_le (p := BringsTo k m)
  have l4 := hp2.countP_le (p := Acquires k m)
  have l5 : p.countP (Brought k m) ≤ (p.map (·.1)).countP (BringsTo k m) := by
    rw [List.countP_map]; exact List.countP_mono_left fun x _ hx => brought_le hx
  have l6 : p.countP (Won k m) ≤ (p.map (·.1)).countP (Acquires k m) := by
    rw [List.countP_map]; exact List.countP_mono_left fun x _ hx => won_le hx
  omega

/-- **C103.**  A member that is in one of the sets, and that nobody adds, is in at most one of them when all is quiet, and the replies
tell in which: wherever it was and was moved to, it is still, or has been moved away or removed.  If nobody removes it, it is in one. -/
theorem C103_one_place {s : Srv} {n : Nat} {es : List Ev} {g : Hub} {ks : List Bytes} (hI : s.Inv) (hclk : ∀ i, env.clock i ≤ H)
    (hcur : s.cur < s.dbs.length) (hlast : ∀ db ∈ s.dbs, ∀ k t, db.exp.get k = some t → H ≤ t)
    (hC : ∀ k ∈ ks, ∃ M, asSet (s.view s.cur k) = some M)
    (hq : ∀ i cmd, .call i cmd ∈ es → Hauling ks cmd ∧ ((∀ k ∈ ks, Bystander k cmd) → Tame c env H cmd))
    (h : HubRun c env (Hub.start s n) es g) (hidle : ∀ x ∈ g.calls, x = .idle) (m : Bytes) (hs : Single (s.view s.cur) ks m)
    (hin : ∃ k ∈ ks, InSet (s.view s.cur) k m) (hacq : ∀ i cmd, .call i cmd ∈ es → ∀ k ∈ ks, Acquires k m cmd = false) :
    Single g.holds ks m ∧
    (∀ k ∈ ks, bit (InSet g.holds k m) + (allExchanges n es).countP (Took k m) + (allExchanges n es).countP (Freed k m) =
      bit (InSet (s.view s.cur) k m) + (allExchanges n es).countP (Brought k m)) ∧
    ((∀ i cmd, .call i cmd ∈ es → ∀ k ∈ ks, Releases k m cmd = false) → ∃ k ∈ ks, InSet g.holds k m) := by
  obtain ⟨l, s', h1, h2, h3, h4⟩ := C69_linearizable_partial hclk hcur hlast (fun i cmd hc => hauling_tame (hq i cmd hc).1 (hq i cmd hc).2) h
  obtain ⟨k0, hk0, _⟩ := hin
  obtain ⟨_, h5, _, _, h7⟩ := board_run hI hclk (List.ne_nil_of_mem hk0) ⟨hC, fun k _ t ht => view_lasts hlast ht⟩
    (fun x hx => (hq x.1 x.2.1 (explains_called h2 hx)).1) m h1
  obtain ⟨h8, h9, h10⟩ := h7 hs fun x hx => hacq x.1 x.2.1 (explains_called h2 hx)
  obtain ⟨hp, _⟩ := counted_idle h h2 h3 hidle
  have hg : g.holds = s'.view s.cur := by funext k; rw [holds_eq k (h4 (idle_quiet hidle)), h5]
  rw [hg]
  refine ⟨h8, fun k hk => ?_, fun hrel => h10 (fun x hx => hrel x.1 x.2.1 (explains_called h2 hx)) ⟨k0, hk0, by assumption⟩⟩
  have := h9 k hk
  rw [← hp.countP_eq, ← hp.countP_eq, ← hp.countP_eq] at this
  exact this

end

namespace Witness

/-- A server whose one database holds two sets. -/
def kanban : Srv := ⟨[dbOf [(b!"todo", .set [b!"a", b!"b"], none), (b!"doing", .set [b!"z"], none)]], 0, 0⟩

/-- Two connections claim `a`; the one that has called first is overtaken by the other. -/
def kanbanActs : List Act :=
  [.call 0 [some b!"SMOVE", some b!"todo", some b!"doing", some b!"a"], .go 0, .go 0, .call 1 [some b!"smove", some b!"todo", some b!"doing", some b!"a"]] ++
    List.replicate 15 (.go 1) ++ List.replicate 11 (.go 0)

/-- What is seen of it. -/
def kanbanSeen : List Ev :=
  [.call 0 [some b!"SMOVE", some b!"todo", some b!"doing", some b!"a"], .call 1 [some b!"smove", some b!"todo", some b!"doing", some b!"a"],
   .answer 1 (replyInt 1), .answer 0 (replyInt 0)]

theorem kanban_inv : kanban.Inv := by
  intro db hdb
  simp only [kanban, List.mem_cons, List.not_mem_nil, or_false] at hdb
  subst hdb
  exact dbOf_inv _ (by decide)

theorem kanban_lasts : ∀ db ∈ kanban.dbs, ∀ k t, db.exp.get k = some t → 100 ≤ t := by
  intro db hdb k t ht
  simp only [kanban, List.mem_cons, List.not_mem_nil, or_false] at hdb
  subst hdb
  simp [dbOf, CMap.get_new] at ht

theorem kanban_hauling : ∀ i cmd, .call i cmd ∈ kanbanSeen →
    Hauling [b!"todo", b!"doing"] cmd ∧ ((∀ k ∈ [b!"todo", b!"doing"], Bystander k cmd) → Tame cfg env 100 cmd) := by
  intro i cmd hc
  simp only [kanbanSeen, List.mem_cons, Ev.call.injEq, List.not_mem_nil, or_false, reduceCtorEq] at hc
  rcases hc with ⟨_, rfl⟩ | ⟨_, rfl⟩
  · exact ⟨.move (by decide +kernel) (by decide) (by decide), fun _ => tame_of ⟨by decide, by decide⟩ (by decide)⟩
  · exact ⟨.move (by decide +kernel) (by decide) (by decide), fun _ => tame_of ⟨by decide, by decide⟩ (by decide)⟩

end Witness

/-- Example: `a` has been claimed by one of the two and is among what is being done, and no longer among what is to be done. -/
example : ∃ g : Hub, ((Hub.start Witness.kanban 2).acts Witness.cfg Witness.env Witness.kanbanActs) = some (Witness.kanbanSeen, g) ∧
    ¬ InSet g.holds b!"todo" b!"a" ∧ InSet g.holds b!"doing" b!"a" := by
  have key : ((Hub.start Witness.kanban 2).acts Witness.cfg Witness.env Witness.kanbanActs).map (fun x => (x.1, x.2.calls.all fun x => x matches .idle)) =
      some (Witness.kanbanSeen, true) := by decide +kernel
  obtain ⟨⟨es, g⟩, h, he⟩ := Option.map_eq_some_iff.1 key
  simp only [Prod.mk.injEq, List.all_eq_true] at he
  obtain ⟨rfl, hidle⟩ := he
  have ht : Witness.kanban.view Witness.kanban.cur b!"todo" = some ⟨.set fun x => x ∈ [b!"a", b!"b"], none⟩ := rfl
  have hd : Witness.kanban.view Witness.kanban.cur b!"doing" = some ⟨.set fun x => x ∈ [b!"z"], none⟩ := rfl
  have i1 : InSet (Witness.kanban.view Witness.kanban.cur) b!"todo" b!"a" := (inSet_some ht _).2 (by decide)
  have i2 : ¬ InSet (Witness.kanban.view Witness.kanban.cur) b!"doing" b!"a" := fun h => absurd ((inSet_some hd _).1 h) (by decide)
  obtain ⟨h1, h2, h3⟩ := C103_one_place (H := 100) (ks := [b!"todo", b!"doing"]) Witness.kanban_inv (fun _ => Int.le_refl _) (by decide)
    Witness.kanban_lasts (by
      intro k hk
      simp only [List.mem_cons, List.not_mem_nil, or_false] at hk
      rcases hk with rfl | rfl
      · rw [ht]; exact ⟨_, rfl⟩
      · rw [hd]; exact ⟨_, rfl⟩) Witness.kanban_hauling (hub_acts h) (fun x hx => by
      have := hidle x hx
      cases x <;> first | rfl | cases this) b!"a" (by
      intro k hk k' hk' h1 h2
      simp only [List.mem_cons, List.not_mem_nil, or_false] at hk hk'
      rcases hk with rfl | rfl <;> rcases hk' with rfl | rfl
      · rfl
      · exact absurd h2 i2
      · exact absurd h1 i2
      · rfl) ⟨_, by decide, i1⟩ (by
      intro i cmd hc k _
      simp only [Witness.kanbanSeen, List.mem_cons, Ev.call.injEq, List.not_mem_nil, or_false, reduceCtorEq] at hc
      rcases hc with ⟨_, rfl⟩ | ⟨_, rfl⟩ <;> rfl)
  refine ⟨g, h, fun hin => ?_, ?_⟩
  · have := h2 b!"todo" (by decide)
    rw [bit_true hin, bit_true i1, show (allExchanges 2 Witness.kanbanSeen).countP (Took b!"todo" b!"a") = 1 by decide +kernel,
      show (allExchanges 2 Witness.kanbanSeen).countP (Brought b!"todo" b!"a") = 0 by decide +kernel] at this
    omega
  · apply Classical.byContradiction
    intro hin
    have := h2 b!"doing" (by decide)
    rw [bit_false hin, bit_false i2, show (allExchanges 2 Witness.kanbanSeen).countP (Took b!"doing" b!"a") = 0 by decide +kernel,
      show (allExchanges 2 Witness.kanbanSeen).countP (Brought b!"doing" b!"a") = 1 by decide +kernel,
      show (allExchanges 2 Witness.kanbanSeen).countP (Freed b!"doing" b!"a") = 0 by decide +kernel] at this
    omega

/-- Example: no matter how the goroutines of any number of connections interleave, of all those that call for `a` to be moved from `todo` to
`doing` at most one is told that it did. -/
example {n : Nat} {es : List Ev} {g : Hub} (h : HubRun Witness.cfg Witness.env (Hub.start Witness.kanban n) es g)
    (hq : ∀ i cmd, .call i cmd ∈ es → cmd = [some b!"smove", some b!"todo", some b!"doing", some b!"a"]) :
    (allExchanges n es).countP (Took b!"todo" b!"a") ≤ 1 := by
  have := C103_claims (H := 100) (ks := [b!"todo", b!"doing"]) Witness.kanban_inv (fun _ => Int.le_refl _) (by decide) Witness.kanban_lasts (by
      intro k hk
      simp only [List.mem_cons, List.not_mem_nil, or_false] at hk
      rcases hk with rfl | rfl <;> exact ⟨_, rfl⟩) (by
      intro i cmd hc
      rw [hq i cmd hc]
      exact ⟨.move (by decide +kernel) (by decide) (by decide), fun _ => tame_of ⟨by decide, by decide⟩ (by decide)⟩) h b!"a" b!"todo" (by decide)
  have hcalls : ∀ cmd ∈ allCalls n es, cmd = [some b!"smove", some b!"todo", some b!"doing", some b!"a"] := by
    intro cmd hcmd
    obtain ⟨i, _, hi⟩ := List.mem_flatMap.1 hcmd
    exact hq i cmd (callsOf_mem.1 hi)
  have e1 : (allCalls n es).countP (BringsTo b!"todo" b!"a") = 0 := by
    rw [List.countP_eq_zero]
    intro cmd hcmd
    rw [hcalls cmd hcmd]; decide +kernel
  have e2 : (allCalls n es).countP (Acquires b!"todo" b!"a") = 0 := by
    rw [List.countP_eq_zero]
    intro cmd hcmd
    rw [hcalls cmd hcmd]; decide +kernel
  have := bit_le (InSet (Witness.kanban.view Witness.kanban.cur) b!"todo" b!"a")
  omega

end GRedis
