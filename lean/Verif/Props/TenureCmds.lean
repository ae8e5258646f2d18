import Verif.Lib.Spare
import Verif.Props.Fade
import Verif.Props.Latch
/-
The commands of those who want a lock that has been taken for some time.
-/
namespace GRedis
open Prog Spec

namespace Spec

/-- The times among the options do not end before `t`, from any reading of the clock that does not show more than `t`. -/
structure Longer (env : Env) (n0 : Nat) (t : Int) (os : List SetOpt) : Prop where
  ex : ∀ m, .ex m ∈ os → ∀ i, n0 ≤ i → env.clock i ≤ t → t ≤ Int.bmod (env.clock i + m) (2 ^ 64)
  px : ∀ m, .px m ∈ os → ∀ i, n0 ≤ i → env.clock i ≤ t → t ≤ Int.bmod (env.clock i + m.tdiv 1000) (2 ^ 64)

/-- The commands around a lock that is taken until `t`: attempts with SET NX and SETNX, EXPIRE with a time that ends at `t` or later,
PERSIST, and commands that leave the key as it is. -/
inductive Contending (env : Env) (n0 : Nat) (key : Bytes) (t : Int) : List Slice → Prop
  | attempt {cmd : List Slice} {os : List SetOpt} : Attempt key os cmd → Longer env n0 t os → Contending env n0 key t cmd
  | setnx {n k v : Slice} : Folds (str n) b!"setnx" → str k = key → Contending env n0 key t [n, k, v]
  | expire {n k a : Slice} {m : Int} : Folds (str n) b!"expire" → str k = key → IntArg (str a) m →
      (∀ i, n0 ≤ i → env.clock i ≤ t → t ≤ Int.bmod (env.clock i + m) (2 ^ 64)) → Contending env n0 key t [n, k, a]
  | persist {n k : Slice} : Folds (str n) b!"persist" → str k = key → Contending env n0 key t [n, k]
  | bystander {cmd : List Slice} : Bystander key cmd → Contending env n0 key t cmd

end Spec

section
variable {c : Cfg} {env : Env} {n0 : Nat} {k : Bytes} {v : Val} {t : Int}

theorem spares_setTtl {o : SetOpts} (h1 : o.ex = true → ∀ i, n0 ≤ i → env.clock i ≤ t → t ≤ wrap64 (env.clock i + o.exval))
    (h2 : o.px = true → ∀ i, n0 ≤ i → env.clock i ≤ t → t ≤ wrap64 (env.clock i + o.pxval.tdiv 1000)) (h3 : o.exat = false) (h4 : o.pxat = false) :
    (setTtl k o).Spares env n0 k v t fun _ => True := by
  have step {b : Bool} {p q : Prog Unit} (hq : q.Spares env n0 k v t fun _ => True)
      (hp : b = true → (q.Spares env n0 k v t fun _ => True) → p.Spares env n0 k v t fun _ => True) :
      (if b = true then p else q).Spares env n0 k v t fun _ => True := by
    split
    · next h => exact hp h hq
    · exact hq
  unfold setTtl
  dsimp only
  refine step (step (step (step (step trivial ?_) ?_) ?_) ?_) ?_
  · exact fun h => by rw [h4] at h; cases h
  · exact fun h => by rw [h3] at h; cases h
  · intro h hq
    refine spares_bind spares_now ?_
    rintro _ ⟨i, a1, a2, rfl⟩
    exact spares_bind (spares_setExpire (h2 h i a1 a2)) fun _ _ => hq
  · intro h hq
    refine spares_bind spares_now ?_
    rintro _ ⟨i, a1, a2, rfl⟩
    exact spares_bind (spares_setExpire (h1 h i a1 a2)) fun _ _ => hq
  · exact fun _ hq => spares_bind spares_deleteExpire fun _ _ => hq

theorem attempt_runs_setString {os : List SetOpt} {cmd : List Slice} {p : Prog Data} (ha : Attempt k os cmd) (h : dispatch c cmd = .exec p) :
    ∃ n key val args, cmd = n :: key :: val :: args ∧ str key = k ∧ p = (do
      let _ ← deleteExpiredKey c k
      withLock c k (setBody k val (os.foldl applyOpt {}))) ∧ (os.foldl applyOpt {}).nx = true ∧ (os.foldl applyOpt {}).get = false := by
  cases ha with
  | @set n key val args hn hk ha h1 h2 h3 h4 =>
    obtain ⟨f, hf, rfl⟩ := dispatch_named (w := b!"set") (by decide +kernel) hn h
    have : some (setString c) = some f := hf
    cases this
    refine ⟨n, key, val, args, rfl, hk, ?_, by rw [fold_nx]; simp [h1], by rw [fold_get]; simp [h3]⟩
    subst hk
    unfold setString
    dsimp only
    rw [parseSetOpts_args ha]
    dsimp only
    rw [if_neg]
    rw [fold_nx, fold_xx, fold_optNum]
    simp [h2]
    exact h4

theorem spares_attempt {os : List SetOpt} {cmd : List Slice} {p : Prog Data} {b : Slice} (ha : Attempt k os cmd) (hl : Longer env n0 t os)
    (h : dispatch c cmd = .exec p) : p.Spares env n0 k (.str b) t fun d => d = replyNil := by
  obtain ⟨n, key, val, args, rfl, rfl, rfl, hnx, hget⟩ := attempt_runs_setString ha h
  refine spares_bind spares_check fun _ _ => spares_withLock (spares_bind spares_dictGet ?_)
  rintro _ rfl
  dsimp only
  refine spares_bind (R := fun d => d = replyNil) ?_ ?_
  · unfold setWrite
    rw [hnx]
    exact rfl
  · rintro _ rfl
    rw [hget]
    refine spares_bind (spares_setTtl ?_ ?_ ?_ ?_) fun _ _ => rfl
    · exact fold_ex_val (fun m => ∀ i, n0 ≤ i → env.clock i ≤ t → t ≤ wrap64 (env.clock i + m)) os {} nofun
        (fun m hm i h1 h2 => by rw [wrap64_eq_bmod]; exact hl.ex m hm i h1 h2)
    · exact fold_px_val (fun m => ∀ i, n0 ≤ i → env.clock i ≤ t → t ≤ wrap64 (env.clock i + m.tdiv 1000)) os {} nofun
        (fun m hm i h1 h2 => by rw [wrap64_eq_bmod]; exact hl.px m hm i h1 h2)
    · rw [(fold_exat os {}).1]
    · rw [(fold_exat os {}).2]

theorem spares_setnx {n key val : Slice} {p : Prog Data} (hn : Folds (str n) b!"setnx") (h : dispatch c [n, key, val] = .exec p) :
    p.Spares env n0 (str key) v t fun d => d = replyInt 0 := by
  obtain ⟨f, hf, rfl⟩ := dispatch_named (w := b!"setnx") (by decide +kernel) hn h
  have : some (setNxString c) = some f := hf
  cases this
  refine spares_bind spares_check fun _ _ => spares_bind spares_dictGet ?_
  rintro _ rfl
  exact rfl

theorem spares_get {n key b : Slice} {p : Prog Data} (hn : Folds (str n) b!"get") (h : dispatch c [n, key] = .exec p) :
    p.Spares env n0 (str key) (.str b) t fun d => d = replyBulk b := by
  obtain ⟨f, hf, rfl⟩ := dispatch_named (w := b!"get") (by decide +kernel) hn h
  have : some (getString c) = some f := hf
  cases this
  refine spares_bind spares_check ?_
  rintro _ rfl
  refine spares_withRLock (spares_bind spares_dictGet ?_)
  rintro _ rfl
  exact rfl

theorem spares_contending {cmd : List Slice} {p : Prog Data} {b : Slice} (hc : Contending env n0 k t cmd) (h : dispatch c cmd = .exec p) :
    p.Spares env n0 k (.str b) t fun _ => True := by
  cases hc with
  | attempt ha hl => exact (spares_attempt ha hl h).mono fun _ _ => trivial
  | setnx hn hk => subst hk; exact (spares_setnx hn h).mono fun _ _ => trivial
  | @expire n key a m hn hk hm ht =>
    subst hk
    obtain ⟨f, hf, rfl⟩ := dispatch_named (w := b!"expire") (by decide +kernel) hn h
    have : some (expireKey c) = some f := hf
    cases this
    show (expireMain c (str key) (str a) [] []).Spares _ _ _ _ _ _
    unfold expireMain
    rw [(atoi_iff _ _).2 hm]
    dsimp only
    refine spares_bind spares_now ?_
    rintro _ ⟨i, h1, h2, rfl⟩
    refine spares_bind spares_check ?_
    rintro _ rfl
    refine spares_withLock ?_
    show (expireBody _ _ [] []).Spares _ _ _ _ _ _
    refine spares_bind (spares_setExpire ?_) fun _ _ => trivial
    rw [wrap64_eq_bmod]
    exact ht i h1 h2
  | @persist n key hn hk =>
    subst hk
    obtain ⟨f, hf, rfl⟩ := dispatch_named (w := b!"persist") (by decide +kernel) hn h
    have : some (persistKey c) = some f := hf
    cases this
    refine spares_bind spares_check ?_
    rintro _ rfl
    exact spares_withLock (spares_bind spares_deleteExpire fun _ _ => trivial)
  | bystander hb => exact spares_mild (bystander_mild hb h)

theorem contending_select {cmd cmd' : List Slice} (hc : Contending env n0 k t cmd) : dispatch c cmd ≠ .select cmd' := by
  have other {n : Slice} {args : List Slice} {w : Bytes} (hn : Folds (str n) w) (hw : w ∈ commands.map (·.1)) (hs : w ≠ b!"select") :
      dispatch c (n :: args) ≠ .select cmd' := by
    intro h
    unfold dispatch at h
    simp only at h
    rw [(toLower_folds (commands_ascii _ hw)).2 hn, if_neg hs] at h
    split at h <;> cases h
  cases hc with
  | attempt ha _ => cases ha with | set hn => exact other hn (by decide +kernel) (by decide +kernel)
  | setnx hn => exact other hn (by decide +kernel) (by decide +kernel)
  | expire hn => exact other hn (by decide +kernel) (by decide +kernel)
  | persist hn => exact other hn (by decide +kernel) (by decide +kernel)
  | bystander hb => exact bystander_select hb

theorem sure_attempt {os : List SetOpt} {cmd : List Slice} {p : Prog Data} (ha : Attempt k os cmd) (h : dispatch c cmd = .exec p) :
    p.Sure k t (fun _ _ _ => False) (fun d => d = replyOK) false false := by
  obtain ⟨n, key, val, args, rfl, rfl, rfl, hnx, hget⟩ := attempt_runs_setString ha h
  refine sure_bind (D := fun _ => False) sure_check ?_ nofun
  rintro l _ a rfl r
  show Prog.Sure (str key) t _ _ l true (.op (.dictGet (str key)) _)
  simp only [Prog.Sure, if_pos]
  refine ⟨?_, nofun⟩
  show Prog.Sure (str key) t _ _ l true ((setWrite (str key) val (os.foldl applyOpt {}) false >>= fun res => _) >>= fun _ => _)
  unfold setWrite
  rw [hnx, hget]
  show Prog.Sure (str key) t _ _ l true (.op (.dictSet (str key) _) _)
  simp only [Prog.Sure, if_pos]
  intro r
  show Prog.Ends _ ((setTtl (str key) (os.foldl applyOpt {}) >>= fun _ => pure rOK) >>= fun d => _)
  refine Prog.Ends.bind (R := fun d => d = replyOK) ((ends_any _).bind fun _ _ => ?_) fun d hd r => hd
  exact rfl

end
end GRedis
