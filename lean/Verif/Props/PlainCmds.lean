import Verif.Lib.Plain
import Verif.Props.Names
import Verif.Props.Sets
import Verif.Props.Queue
import Verif.Props.Full
/-
No command stores or answers a word that it has neither been given nor found.
-/
namespace GRedis
open Prog Spec

/-- The commands that make the key they name first, if it is not there. -/
def makers : List Bytes := [b!"set", b!"setrange", b!"setex", b!"setnx", b!"incrbyfloat", b!"append", b!"hincrby", b!"hincrbyfloat",
  b!"hmset", b!"hset", b!"hsetnx", b!"lpush", b!"rpush", b!"sadd", b!"sdiffstore", b!"sinterstore", b!"sunionstore"]

/-- The commands that compute a new string or a new value of a field. -/
def editors : List Bytes := [b!"append", b!"setrange", b!"incr", b!"incrby", b!"decr", b!"decrby", b!"incrbyfloat", b!"hincrby",
  b!"hincrbyfloat"]

/-- Which words command `w` with these arguments can bring into the database, and as what. -/
inductive Stows (w : Bytes) (args : List Slice) : Role → Bytes → Prop
  | key {x : Slice} : w ∈ makers → args[0]? = some x → Stows w args .key (str x)
  | target {x : Slice} : w ∈ [b!"rename", b!"lmove"] → args[1]? = some x → Stows w args .key (str x)
  | mkey {i : Nat} {x : Slice} : w = b!"mset" → args[2 * i]? = some x → Stows w args .key (str x)
  | push {i : Nat} {x : Slice} : w ∈ [b!"lpush", b!"rpush", b!"lpushx", b!"rpushx"] → args[i + 1]? = some x → Stows w args .elem (str x)
  | lset {x : Slice} : w = b!"lset" → args[2]? = some x → Stows w args .elem (str x)
  | linsert {x : Slice} : w = b!"linsert" → args[3]? = some x → Stows w args .elem (str x)
  | add {i : Nat} {x : Slice} : w = b!"sadd" → args[i + 1]? = some x → Stows w args .member (str x)
  | fields {i : Nat} {x : Slice} : w ∈ [b!"hset", b!"hmset"] → args[2 * i + 1]? = some x → Stows w args .field (str x)
  | field {x : Slice} : w ∈ [b!"hsetnx", b!"hincrby", b!"hincrbyfloat"] → args[1]? = some x → Stows w args .field (str x)
  | set {x : Slice} : w ∈ [b!"set", b!"setnx"] → args[1]? = some x → Stows w args .text (str x)
  | setex {x : Slice} : w = b!"setex" → args[2]? = some x → Stows w args .text (str x)
  | mset {i : Nat} {x : Slice} : w = b!"mset" → args[2 * i + 1]? = some x → Stows w args .text (str x)
  | values {i : Nat} {x : Slice} : w ∈ [b!"hset", b!"hmset"] → args[2 * i + 2]? = some x → Stows w args .text (str x)
  | value {x : Slice} : w = b!"hsetnx" → args[2]? = some x → Stows w args .text (str x)

/-- The bulk strings of the reply. -/
def Spoken (P : Bytes → Prop) : Data → Prop
  | .item x => ∀ b, x = .bulk (some b) → P b
  | .array none => True
  | .array (some xs) => ∀ b, Item.bulk (some b) ∈ xs → P b

/-- What a command answers with. -/
inductive Gift where
  | of (k : Role)
  /-- keys, and the empty word -/
  | keys
  /-- texts, as long as nobody edits them -/
  | text
  /-- the same, and fields -/
  | pair
  /-- parts of texts, as long as nobody edits them -/
  | part

/-- The bulk strings of the reply to the command are of this origin. -/
def gifts : List (Bytes × Gift) := [(b!"lpop", .of .elem), (b!"rpop", .of .elem), (b!"lindex", .of .elem), (b!"lrange", .of .elem),
  (b!"lmove", .of .elem), (b!"spop", .of .member), (b!"srandmember", .of .member), (b!"smembers", .of .member),
  (b!"sinter", .of .member), (b!"sunion", .of .member), (b!"sdiff", .of .member), (b!"hkeys", .of .field), (b!"keys", .keys),
  (b!"get", .text), (b!"mget", .text), (b!"set", .text), (b!"hget", .text), (b!"hmget", .text), (b!"hvals", .text),
  (b!"hgetall", .pair), (b!"hrandfield", .pair), (b!"getrange", .part)]

def Gift.Fits (e : Bool) (A : Role → Bytes → Prop) (b : Bytes) : Gift → Prop
  | .of k => A k b
  | .keys => b = [] ∨ A .key b
  | .text => e = true ∨ A .text b
  | .pair => A .field b ∨ e = true ∨ A .text b
  | .part => b = [] ∨ e = true ∨ ∃ t, A .text t ∧ b <:+: t

/-- The reply is of the right origin. -/
def Reply (e : Bool) (A : Role → Bytes → Prop) (w : Bytes) (d : Data) : Prop := ∀ g, gifts.lookup w = some g → Spoken (fun b => g.Fits e A b) d

section
variable {e : Bool} {A : Role → Bytes → Prop} {c : Cfg} {P : Bytes → Prop}

theorem told_simple {s : Bytes} : Spoken P (rSimple s) := by simp [Spoken, rSimple]
theorem told_err {s : Bytes} : Spoken P (rErr s) := by simp [Spoken, rErr]
theorem told_int {i : Int} : Spoken P (rInt i) := by simp [Spoken, rInt]
theorem told_nil : Spoken P rNil := by simp [Spoken, rNil]
theorem told_nilArr : Spoken P rNilArr := by simp [Spoken, rNilArr]
theorem told_none : Spoken P (rArr []) := by simp [Spoken, rArr]
theorem told_bulk {b : Slice} (h : ∀ x, b = some x → P x) : Spoken P (rBulk b) := by simpa [Spoken, rBulk] using h
theorem told_bulks {l : List Slice} (h : ∀ x ∈ l, P (str x)) : Spoken P (rArr (l.map .bulk)) := by
  simp only [Spoken, rArr, List.mem_map]
  rintro b ⟨x, hx, hb⟩
  cases hb
  exact h _ hx
theorem told_words {l : List Bytes} (h : ∀ x ∈ l, P x) : Spoken P (rArr (l.map fun m => .bulk (some m))) := by
  simp only [Spoken, rArr, List.mem_map]
  rintro b ⟨x, hx, hb⟩
  cases hb
  exact h _ hx
theorem told_appended {l : List Bytes} (h : ∀ x ∈ l, P x) : Spoken P (appendedArr l) := by
  unfold appendedArr
  split
  · exact told_nilArr
  · exact told_words h

theorem reply_none {w : Bytes} {d : Data} (h : gifts.lookup w = none) : Reply e A w d := fun g hg => by rw [h] at hg; cases hg
theorem reply_of {w : Bytes} {d : Data} {g : Gift} (h : gifts.lookup w = some g) (hd : Spoken (fun b => g.Fits e A b) d) : Reply e A w d :=
  fun g' hg => by rw [h] at hg; cases hg; exact hd

end

macro "told" : tactic => `(tactic| first
  | exact told_err | exact told_int | exact told_nil | exact told_simple | exact told_nilArr | exact told_none)

macro "plainstep" : tactic => `(tactic| first
  | exact plain_fault
  | (refine plain_pure ?_; first | exact trivial | told)
  | with_reducible refine plain_withLock ?_
  | with_reducible refine plain_withRLock ?_
  | with_reducible refine plain_withMLock ?_
  | with_reducible refine plain_withMRLock ?_
  | with_reducible refine plain_bind (plain_setExpire fun _ => ?_)
  | with_reducible refine plain_bind (plain_check fun _ => ?_)
  | with_reducible refine plain_bind (plain_get fun _ _ => ?_)
  | with_reducible refine plain_bind (plain_now fun _ => ?_)
  | with_reducible refine plain_bind (plain_del fun _ => ?_)
  | with_reducible refine plain_bind (plain_expGet fun _ => ?_)
  | with_reducible refine plain_bind (plain_expDel fun _ => ?_)
  | with_reducible refine plain_bind (plain_cleanup ?_)
  | dsimp only
  | split)

macro "plain " f:ident : tactic => `(tactic| (unfold $f:ident; repeat' plainstep))

section
variable {e : Bool} {A : Role → Bytes → Prop} {c : Cfg} {P : Bytes → Prop} {T : Data → Prop} (cmd : List Slice)

/-- Nothing is said of the reply. -/
abbrev Mute (e : Bool) (A : Role → Bytes → Prop) (p : Prog Data) : Prop := p.Plain e A fun _ => True

/-! ### Commands that store nothing and whose replies are not spoken of -/

theorem plain_pingKeys : Mute e A (pingKeys cmd) := by plain pingKeys
theorem plain_delLoop {m : Nat} {ks : List Slice} : (delLoop c m ks).Plain e A fun _ => True := by
  induction ks generalizing m with
  | nil => exact plain_pure trivial
  | cons k ks ih =>
    unfold delLoop
    refine plain_bind (plain_check fun b => ?_)
    split
    · exact ih
    · refine plain_bind (plain_withLock ?_)
      exact plain_bind (plain_del fun _ => plain_bind (plain_expDel fun _ => plain_pure ih))
theorem plain_delKey : Mute e A (delKey c cmd) := by
  unfold delKey
  split
  · exact plain_bind (plain_delLoop.mono fun _ _ => plain_pure trivial)
  · exact plain_pure trivial
theorem plain_existsLoop {m : Nat} {ks : List Slice} : (existsLoop c m ks).Plain e A fun _ => True := by
  induction ks generalizing m with
  | nil => exact plain_pure trivial
  | cons k ks ih =>
    unfold existsLoop
    refine plain_bind (plain_check fun b => ?_)
    split
    · exact ih
    · exact plain_bind (plain_withRLock (plain_get fun _ _ => ih))
theorem plain_existsKey : Mute e A (existsKey c cmd) := by
  unfold existsKey
  split
  · exact plain_bind (plain_existsLoop.mono fun _ _ => plain_pure trivial)
  · exact plain_pure trivial
theorem plain_expireBody {k o r : Bytes} {t : Int} : Mute e A (expireBody k t o r) := by plain expireBody
theorem plain_expireMain {k a o r : Bytes} : Mute e A (expireMain c k a o r) := by
  unfold expireMain; repeat' first | exact plain_expireBody | plainstep
theorem plain_expireKey : Mute e A (expireKey c cmd) := by
  unfold expireKey; repeat' first | exact plain_expireMain | plainstep
theorem plain_persistKey : Mute e A (persistKey c cmd) := by plain persistKey
theorem plain_ttlKey : Mute e A (ttlKey c cmd) := by plain ttlKey
theorem plain_typeKey : Mute e A (typeKey c cmd) := by plain typeKey
theorem plain_strLenString : Mute e A (strLenString c cmd) := by plain strLenString
theorem plain_hExistsHash : Mute e A (hExistsHash c cmd) := by plain hExistsHash
theorem plain_hLenHash : Mute e A (hLenHash c cmd) := by plain hLenHash
theorem plain_hStrLenHash : Mute e A (hStrLenHash c cmd) := by plain hStrLenHash
theorem plain_lLenList : Mute e A (lLenList c cmd) := by plain lLenList
theorem plain_lPosList : Mute e A (lPosList c cmd) := by plain lPosList
theorem plain_sCardSet : Mute e A (sCardSet c cmd) := by plain sCardSet
theorem plain_sIsMemberSet : Mute e A (sIsMemberSet c cmd) := by plain sIsMemberSet
end

section
variable {e : Bool} {A : Role → Bytes → Prop} {c : Cfg} {P : Bytes → Prop} {T : Data → Prop} (cmd : List Slice)

/-- The command brings in words of `A` only. -/
abbrev Brings (A : Role → Bytes → Prop) (w : Bytes) (cmd : List Slice) : Prop := ∀ kd x, Stows w (cmd.drop 1) kd x → A kd x

theorem Brings.key {w : Bytes} {n k : Slice} {l : List Slice} (h : Brings A w (n :: k :: l)) (hw : w ∈ makers) : A .key (str k) :=
  h _ _ (.key hw rfl)

/-! ### Keys -/

theorem plain_renameKey (h : Brings A b!"rename" cmd) : Mute e A (renameKey c cmd) := by
  unfold renameKey
  split
  · refine plain_bind (plain_check fun _ => ?_)
    split
    · exact plain_pure trivial
    refine plain_withMLock (plain_bind (plain_get fun r hr => ?_))
    split
    · exact plain_pure trivial
    refine plain_bind (plain_expGet fun _ => plain_bind (plain_del fun _ => plain_bind (plain_expDel fun _ =>
      plain_bind (plain_del fun _ => plain_bind (plain_expDel fun _ => plain_bind (plain_set ?_ hr.2 fun _ => ?_))))))
    · exact h _ _ (.target (by decide) rfl)
    · repeat' plainstep
  · exact plain_pure trivial

theorem plain_keysSegLoop {len i n : Nat} {acc : List Bytes} (ha : ∀ x ∈ acc, A .key x) :
    (keysSegLoop len acc i n).Plain e A fun r => ∀ x ∈ r, A .key x := by
  induction n generalizing acc i with
  | zero => exact plain_pure ha
  | succ n ih =>
    unfold keysSegLoop
    refine plain_bind (plain_segKeys fun r hr => plain_bind (plain_order fun r' hp => ?_))
    split
    · exact plain_fault
    · refine ih fun x hx => ?_
      rcases List.mem_append.1 hx with hx | hx
      · exact ha x hx
      · exact hr x (hp.mem_iff.1 hx)

theorem plain_keysLoop {p : Bytes} {res : List Item} {ks : List Bytes} (hr : ∀ b, Item.bulk (some b) ∈ res → P b) (hk : ∀ x ∈ ks, P x) :
    (keysLoop c p res ks).Plain e A fun r => ∀ b, Item.bulk (some b) ∈ r → P b := by
  induction ks generalizing res with
  | nil => exact plain_pure hr
  | cons k ks ih =>
    unfold keysLoop
    have hk' : ∀ x ∈ ks, P x := fun x hx => hk x (List.mem_cons_of_mem _ hx)
    refine plain_bind (plain_check fun _ => ?_)
    split
    · exact ih hr hk'
    · split
      · exact plain_fault
      · refine ih (fun b hb => ?_) hk'
        rcases List.mem_append.1 hb with hb | hb
        · exact hr b hb
        · simp at hb; exact hb ▸ hk _ (by simp)
      · exact ih hr hk'

theorem plain_keysKey : (keysKey c cmd).Plain e A (Spoken fun b => b = [] ∨ A .key b) := by
  unfold keysKey
  split
  · refine plain_bind ?_
    unfold dictKeys
    refine plain_bind ⟨trivial, fun m _ => ?_⟩
    show Prog.Plain e A _ (if m < 0 then _ else _)
    split
    · exact plain_fault
    refine plain_bind ⟨trivial, fun m' _ => ?_⟩
    show Prog.Plain e A _ (keysSegLoop _ _ _ m' >>= _)
    refine plain_bind ((plain_keysSegLoop (by simp)).mono fun ks hks => plain_pure ?_)
    refine plain_bind ((plain_keysLoop (P := fun b => b = [] ∨ A .key b) (by simp) fun x hx => ?_).mono fun r hr => plain_pure hr)
    rcases List.mem_append.1 hx with hx | hx
    · exact .inr (hks x hx)
    · exact .inl (List.eq_of_mem_replicate hx)
  · exact plain_pure told_err

/-! ### Strings -/

theorem plain_setWrite {k : Bytes} {v : Slice} {o : SetOpts} {b : Bool} {S : Data → Prop} (hk : A .key k) (hv : A .text (str v))
    (h : ∀ d, Spoken P d → S d) : (setWrite k v o b).Plain e A S := by
  unfold setWrite
  have hs : ∀ (f : Nat → Prog Data), (∀ r, (f r).Plain e A S) → (dictSet k (.str v) >>= f).Plain e A S :=
    fun f hf => plain_bind (plain_set hk (.inr hv) hf)
  repeat' first
    | exact plain_pure (h _ told_simple)
    | exact plain_pure (h _ told_nil)
    | refine hs _ fun _ => ?_
    | split

theorem plain_setTtl {k : Bytes} {o : SetOpts} {S : Unit → Prop} (h : S ()) : (setTtl k o).Plain e A S := by
  unfold setTtl
  dsimp only
  repeat' first
    | exact plain_pure h
    | plainstep

theorem plain_parseSet {o : SetOpts} {l : List Slice} {d : Data} (h : parseSetOpts o l = .reply d) : Spoken P d := by
  fun_induction parseSetOpts o l <;> first | (cases h; done) | (cases h; exact told_err) | (rename_i ih; exact ih h)

theorem plain_setString (h : Brings A b!"set" cmd) : (setString c cmd).Plain e A (Spoken fun b => e = true ∨ A .text b) := by
  unfold setString
  split
  · next n k val l =>
    have hk : A .key (str k) := h.key (by decide)
    have hv : A .text (str val) := h _ _ (.set (by decide) rfl)
    refine plain_bind (plain_check fun _ => ?_)
    split
    · exact plain_fault
    · next hp => exact plain_pure (plain_parseSet hp)
    next o _ =>
    split
    · exact plain_pure told_err
    refine plain_withLock (plain_bind (plain_get fun r hr => ?_))
    have go (old : Slice) (b : Bool) (ho : ∀ x, old = some x → e = true ∨ A .text x) :
        Prog.Plain e A (Spoken fun b => e = true ∨ A .text b) (do
          let res ← setWrite (str k) val o b
          let res := if o.get then (if b then rBulk old else rNil) else res
          setTtl (str k) o
          return res) := by
      refine plain_bind (plain_setWrite (P := fun b => e = true ∨ A .text b) hk hv fun d hd => ?_)
      refine plain_bind (plain_setTtl (plain_pure ?_))
      split
      · split
        · exact told_bulk ho
        · exact told_nil
      · exact hd
    dsimp only
    rcases r with _ | v
    · exact go none false (by simp)
    rcases v with b | _ | _ | _
    · exact go b true fun x hx => by subst hx; exact hr.2
    all_goals exact plain_pure told_err
  · exact plain_pure told_err

theorem plain_getString : (getString c cmd).Plain e A (Spoken fun b => e = true ∨ A .text b) := by
  unfold getString
  split
  · refine plain_bind (plain_check fun _ => ?_)
    split
    · exact plain_pure told_nil
    refine plain_withRLock (plain_bind (plain_get fun r hr => ?_))
    split
    · exact plain_pure (told_bulk fun x hx => by subst hx; exact hr.2)
    · exact plain_pure told_err
    · exact plain_pure told_nil
  · exact plain_pure told_err

theorem plain_getRangeString : (getRangeString c cmd).Plain e A (Spoken fun b => b = [] ∨ e = true ∨ ∃ t, A .text t ∧ b <:+: t) := by
  have he {Q : Bytes → Prop} : Spoken (fun b => b = [] ∨ Q b) (rBulk (some [])) := told_bulk fun x hx => by cases hx; exact .inl rfl
  unfold getRangeString
  split
  · refine plain_bind (plain_check fun _ => ?_)
    split
    · exact plain_pure he
    split
    · refine plain_withRLock (plain_bind (plain_get fun r hr => ?_))
      split
      · exact plain_pure he
      · next v =>
        split
        · exact plain_pure he
        · next i j _ =>
          refine plain_pure (told_bulk fun x hx => ?_)
          cases v with
          | none => cases hx
          | some v =>
            cases hx
            refine .inr (hr.2.imp id fun h => ⟨v, h, ?_⟩)
            exact ((List.drop_suffix _ _).isInfix).trans (List.take_prefix _ _).isInfix
      · exact plain_pure told_err
    · exact plain_pure told_err
  · exact plain_pure told_err

theorem plain_mGetLoop {res : List Item} {ks : List Slice} (hr : ∀ b, Item.bulk (some b) ∈ res → e = true ∨ A .text b) :
    (mGetLoop c res ks).Plain e A fun r => ∀ b, Item.bulk (some b) ∈ r → e = true ∨ A .text b := by
  induction ks generalizing res with
  | nil => exact plain_pure hr
  | cons k ks ih =>
    unfold mGetLoop
    refine plain_bind (plain_check fun _ => ?_)
    split
    · exact ih hr
    refine plain_bind (plain_withRLock (plain_get fun r hv => ?_))
    split
    · refine ih fun b hb => ?_
      rcases List.mem_append.1 hb with hb | hb
      · exact hr b hb
      · simp only [List.mem_singleton, Item.bulk.injEq] at hb; subst hb; exact hv.2
    all_goals
      refine ih fun b hb => ?_
      simp at hb
      exact hr b hb

theorem plain_mGetString : (mGetString c cmd).Plain e A (Spoken fun b => e = true ∨ A .text b) := by
  unfold mGetString
  split
  · exact plain_bind ((plain_mGetLoop (by simp)).mono fun r hr => plain_pure hr)
  · exact plain_pure told_err

theorem plain_mSetLoop {l : List (Bytes × Slice)} {S : Unit → Prop} (hl : ∀ x ∈ l, A .key x.1 ∧ A .text (str x.2)) (h : S ()) :
    (mSetLoop l).Plain e A S := by
  induction l with
  | nil => exact plain_pure h
  | cons x l ih =>
    unfold mSetLoop
    have hx := hl x (by simp)
    refine plain_bind (plain_expDel fun _ => plain_bind (plain_set hx.1 (.inr hx.2) fun _ => ?_))
    exact ih fun y hy => hl y (List.mem_cons_of_mem _ hy)

theorem pairUp_mem {l : List Slice} {x : Bytes × Slice} (h : x ∈ pairUp l) :
    ∃ i k, l[2 * i]? = some k ∧ str k = x.1 ∧ l[2 * i + 1]? = some x.2 := by
  induction l using pairUp.induct with
  | case1 k v rest ih =>
    rw [pairUp] at h
    rcases List.mem_cons.1 h with rfl | h
    · exact ⟨0, k, rfl, rfl, rfl⟩
    · obtain ⟨i, k', h1, h2, h3⟩ := ih h
      exact ⟨i + 1, k', h1, h2, h3⟩
  | case2 l hl =>
    rw [pairUp] at h
    · cases h
    · exact hl

theorem plain_mSetString (h : Brings A b!"mset" cmd) : Mute e A (mSetString c cmd) := by
  unfold mSetString
  split
  · exact plain_pure trivial
  · refine plain_withMLock (plain_bind (plain_mSetLoop (fun x hx => ?_) (plain_pure trivial)))
    obtain ⟨i, k, h1, h2, h3⟩ := pairUp_mem hx
    exact ⟨h2 ▸ h _ _ (.mkey rfl h1), h _ _ (.mset rfl h3)⟩

theorem plain_setExString (h : Brings A b!"setex" cmd) : Mute e A (setExString c cmd) := by
  unfold setExString
  split
  · refine plain_bind (plain_check fun _ => ?_)
    split
    · exact plain_pure trivial
    refine plain_withLock (plain_bind (plain_set (h.key (by decide)) (.inr (h _ _ (.setex rfl rfl))) fun _ => ?_))
    repeat' plainstep
  · exact plain_pure trivial

theorem plain_setNxString (h : Brings A b!"setnx" cmd) : Mute e A (setNxString c cmd) := by
  unfold setNxString
  split
  · refine plain_bind (plain_check fun _ => plain_bind (plain_get fun _ _ => ?_))
    split
    · exact plain_pure trivial
    refine plain_withLock (plain_bind (plain_set (h.key (by decide)) (.inr (h _ _ (.set (by decide) rfl))) fun _ => ?_))
    exact plain_pure trivial
  · exact plain_pure trivial

theorem plain_counterBody {k : Bytes} {f : Int → Int} {d : Data} (he : e = true) : Mute e A (counterBody k f d) := by
  unfold counterBody
  refine plain_bind (plain_get fun r hr => ?_)
  split
  · split
    · exact plain_pure trivial
    · exact plain_bind (plain_set hr.1 (.inl he) fun _ => plain_pure trivial)
  · exact plain_pure trivial
  · exact plain_pure trivial

theorem plain_incrString (he : e = true) : Mute e A (incrString c cmd) := by
  unfold incrString; repeat' first | exact plain_counterBody he | plainstep
theorem plain_incrByString (he : e = true) : Mute e A (incrByString c cmd) := by
  unfold incrByString; repeat' first | exact plain_counterBody he | plainstep
theorem plain_decrString (he : e = true) : Mute e A (decrString c cmd) := by
  unfold decrString; repeat' first | exact plain_counterBody he | plainstep
theorem plain_decrByString (he : e = true) : Mute e A (decrByString c cmd) := by
  unfold decrByString; repeat' first | exact plain_counterBody he | plainstep

theorem plain_edit {k : Bytes} {v : Slice} {α : Type} {R : α → Prop} {f : Nat → Prog α} (he : e = true) (hk : A .key k)
    (h : ∀ r, (f r).Plain e A R) : (dictSet k (.str v) >>= f).Plain e A R := plain_bind (plain_set hk (.inl he) h)

theorem plain_incrByFloatString (he : e = true) (h : Brings A b!"incrbyfloat" cmd) : Mute e A (incrByFloatString c cmd) := by
  unfold incrByFloatString
  split
  · have hk := h.key (by decide)
    repeat' first | refine plain_edit he hk fun _ => ?_ | plainstep
  · exact plain_pure trivial
theorem plain_appendString (he : e = true) (h : Brings A b!"append" cmd) : Mute e A (appendString c cmd) := by
  unfold appendString
  split
  · have hk := h.key (by decide)
    repeat' first | refine plain_edit he hk fun _ => ?_ | plainstep
  · exact plain_pure trivial
theorem plain_setRangeString (he : e = true) (h : Brings A b!"setrange" cmd) : Mute e A (setRangeString c cmd) := by
  unfold setRangeString
  split
  · have hk := h.key (by decide)
    repeat' first | refine plain_edit he hk fun _ => ?_ | plainstep
  · exact plain_pure trivial
end

section
variable {e : Bool} {A : Role → Bytes → Prop} {c : Cfg} {P : Bytes → Prop} {T : Data → Prop} (cmd : List Slice)

/-! ### Hashes -/

theorem of_hSet {h : HashT} {k : Bytes} {v : Slice} (hh : (Val.hash h).Of e A) (hk : A .field k) (hv : e = true ∨ A .text (str v)) :
    (Val.hash (hSet h k v).1).Of e A := by
  intro x hx
  rcases List.mem_cons.1 hx with rfl | hx
  · exact ⟨hk, hv⟩
  · exact hh x (List.mem_filter.1 hx).1

theorem of_hDel {h : HashT} {k : Bytes} (hh : (Val.hash h).Of e A) : (Val.hash (hDel h k).1).Of e A := by
  unfold hDel
  split
  · exact hh
  · exact fun x hx => hh x (List.mem_filter.1 hx).1

theorem of_hDelLoop {h : HashT} {n : Nat} {l : List Slice} (hh : (Val.hash h).Of e A) : (Val.hash (hDelLoop h n l).1).Of e A := by
  induction l generalizing h n with
  | nil => exact hh
  | cons f l ih => exact ih (of_hDel hh)

theorem of_hSetLoop {h : HashT} {n : Nat} {l : List Slice} (hh : (Val.hash h).Of e A)
    (hf : ∀ (i : Nat) (x : Slice), l[2 * i]? = some x → A .field (str x)) (hv : ∀ (i : Nat) (x : Slice), l[2 * i + 1]? = some x → A .text (str x)) :
    (Val.hash (hSetLoop h n l).1).Of e A := by
  fun_induction hSetLoop h n l with
  | case1 h n f v rest ih =>
    exact ih (of_hSet hh (hf 0 f rfl) (.inr (hv 0 v rfl))) (fun i x hx => hf (i + 1) x hx) fun i x hx => hv (i + 1) x hx
  | case2 => exact hh

theorem hGet_of {h : HashT} {f : Bytes} {x : Bytes} (hh : (Val.hash h).Of e A) (hx : hGet h f = some x) : e = true ∨ A .text x := by
  unfold hGet at hx
  cases hm : mget h f with
  | none => rw [hm] at hx; cases hx
  | some v =>
    rw [hm] at hx
    have hx : v = some x := hx
    subst hx
    exact (hh _ (mget_eq_some_mem hm)).2

theorem hGet_of' {h : HashT} {f : Bytes} (hh : (Val.hash h).Of e A) (hf : f ∈ h.map (·.1)) : e = true ∨ A .text (str (hGet h f)) := by
  unfold hGet
  cases hm : mget h f with
  | none => exact absurd hf ((mget_eq_none_iff _ _).1 hm)
  | some v => exact (hh _ (mget_eq_some_mem hm)).2

theorem field_of {h : HashT} {f : Bytes} (hh : (Val.hash h).Of e A) (hf : f ∈ h.map (·.1)) : A .field f := by
  obtain ⟨x, hx, rfl⟩ := List.mem_map.1 hf
  exact (hh x hx).1

theorem told_pairs {h : HashT} {ks : List Bytes} (hh : (Val.hash h).Of e A) (hk : ∀ f ∈ ks, f ∈ h.map (·.1)) :
    Spoken (fun b => A .field b ∨ e = true ∨ A .text b) (rArr (ks.flatMap fun f => [.bulk (some f), .bulk (hGet h f)])) := by
  intro b hb
  obtain ⟨f, hf, hb⟩ := List.mem_flatMap.1 hb
  simp only [List.mem_cons, Item.bulk.injEq, Option.some.injEq, List.not_mem_nil, or_false] at hb
  rcases hb with rfl | hb
  · exact .inl (field_of hh (hk _ hf))
  · exact .inr (hGet_of hh hb.symm)

theorem plain_hDelHash : Mute e A (hDelHash c cmd) := by
  unfold hDelHash
  split
  · refine plain_bind (plain_check fun _ => ?_)
    split
    · exact plain_pure trivial
    refine plain_withLock (plain_bind (plain_get fun r hr => ?_))
    split
    · exact plain_pure trivial
    · refine plain_bind (plain_put (of_hDelLoop hr.2) ?_)
      repeat' plainstep
    · exact plain_pure trivial
  · exact plain_pure trivial

theorem plain_hGetHash : (hGetHash c cmd).Plain e A (Spoken fun b => e = true ∨ A .text b) := by
  unfold hGetHash
  split
  · refine plain_bind (plain_check fun _ => ?_)
    split
    · exact plain_pure told_nil
    refine plain_withRLock (plain_bind (plain_get fun r hr => ?_))
    split
    · exact plain_pure told_nil
    · exact plain_pure (told_bulk fun x hx => hGet_of hr.2 hx)
    · exact plain_pure told_err
  · exact plain_pure told_err

theorem plain_hGetAllHash : (hGetAllHash c cmd).Plain e A (Spoken fun b => A .field b ∨ e = true ∨ A .text b) := by
  unfold hGetAllHash
  split
  · refine plain_bind (plain_check fun _ => ?_)
    split
    · exact plain_pure told_none
    refine plain_withRLock (plain_bind (plain_get fun r hr => ?_))
    split
    · exact plain_pure told_none
    · exact plain_bind (plain_order fun ks hp => plain_pure (told_pairs hr.2 fun f hf => hp.mem_iff.1 hf))
    · exact plain_pure told_err
  · exact plain_pure told_err

theorem plain_newHash {k : Bytes} {α : Type} {R : α → Prop} {f : Val → Prog α} (hk : A .key k) (h : ∀ r, r.Of e A → (f r).Plain e A R) :
    (getOrCreate k (.hash []) >>= f).Plain e A R := plain_bind (plain_getOrCreate hk (fun _ hx => by cases hx) h)

theorem plain_hIncrByHash (he : e = true) (h : Brings A b!"hincrby" cmd) : Mute e A (hIncrByHash c cmd) := by
  unfold hIncrByHash
  split
  · next n k f i =>
    have hf : A .field (str f) := h _ _ (.field (by decide) rfl)
    refine plain_bind (plain_check fun _ => plain_withLock (plain_newHash (h.key (by decide)) fun r hr => ?_))
    split
    · next t =>
      split
      · exact plain_pure trivial
      split
      · exact plain_pure trivial
      · next h' val hi =>
        refine plain_bind (plain_put ?_ (plain_pure trivial))
        unfold hIncrBy at hi
        split at hi
        · cases hi; exact of_hSet hr hf (.inl he)
        · split at hi
          · cases hi
          · cases hi; exact of_hSet hr hf (.inl he)
    · exact plain_pure trivial
  · exact plain_pure trivial

theorem plain_hIncrByFloatHash (he : e = true) (h : Brings A b!"hincrbyfloat" cmd) : Mute e A (hIncrByFloatHash c cmd) := by
  unfold hIncrByFloatHash
  split
  · next n k f i =>
    have hf : A .field (str f) := h _ _ (.field (by decide) rfl)
    refine plain_bind (plain_check fun _ => plain_withLock (plain_newHash (h.key (by decide)) fun r hr => ?_))
    split
    · next t =>
      split
      · exact plain_pure trivial
      split
      · exact plain_pure trivial
      · next h' val hi =>
        refine plain_bind (plain_put ?_ (plain_pure trivial))
        unfold hIncrByFloat at hi
        split at hi
        · cases hi; exact of_hSet hr hf (.inl he)
        · split at hi
          · cases hi
          · cases hi; exact of_hSet hr hf (.inl he)
    · exact plain_pure trivial
  · exact plain_pure trivial

theorem plain_hKeysHash : (hKeysHash c cmd).Plain e A (Spoken (A .field)) := by
  unfold hKeysHash
  split
  · refine plain_bind (plain_check fun _ => ?_)
    split
    · exact plain_pure told_none
    refine plain_withRLock (plain_bind (plain_get fun r hr => ?_))
    split
    · exact plain_pure told_none
    · exact plain_bind (plain_order fun ks hp => plain_pure (told_words fun f hf => field_of hr.2 (hp.mem_iff.1 hf)))
    · exact plain_pure told_err
  · exact plain_pure told_err

theorem plain_hMGetHash : (hMGetHash c cmd).Plain e A (Spoken fun b => e = true ∨ A .text b) := by
  unfold hMGetHash
  split
  · refine plain_bind (plain_check fun _ => ?_)
    split
    · exact plain_pure told_none
    refine plain_withRLock (plain_bind (plain_get fun r hr => ?_))
    split
    · exact plain_pure told_none
    · refine plain_pure fun b hb => ?_
      obtain ⟨x, _, hb⟩ := List.mem_map.1 hb
      exact hGet_of hr.2 (Item.bulk.inj hb)
    · exact plain_pure told_err
  · exact plain_pure told_err

theorem plain_hMSetHash (h : Brings A b!"hmset" cmd) : Mute e A (hMSetHash c cmd) := by
  unfold hMSetHash
  split
  · exact plain_pure trivial
  split
  · refine plain_bind (plain_check fun _ => plain_withLock (plain_newHash (h.key (by decide)) fun r hr => ?_))
    split
    · refine plain_bind (plain_put (of_hSetLoop hr (fun i x hx => ?_) fun i x hx => ?_) (plain_pure trivial))
      · exact h _ _ (.fields (i := i) (by decide) hx)
      · exact h _ _ (.values (i := i) (by decide) hx)
    · exact plain_pure trivial
  · exact plain_pure trivial

theorem plain_hSetHash (h : Brings A b!"hset" cmd) : Mute e A (hSetHash c cmd) := by
  unfold hSetHash
  split
  · exact plain_pure trivial
  split
  · refine plain_bind (plain_check fun _ => plain_withLock (plain_newHash (h.key (by decide)) fun r hr => ?_))
    split
    · refine plain_bind (plain_put (of_hSetLoop hr (fun i x hx => ?_) fun i x hx => ?_) (plain_pure trivial))
      · exact h _ _ (.fields (i := i) (by decide) hx)
      · exact h _ _ (.values (i := i) (by decide) hx)
    · exact plain_pure trivial
  · exact plain_pure trivial

theorem plain_hSetNxHash (h : Brings A b!"hsetnx" cmd) : Mute e A (hSetNxHash c cmd) := by
  unfold hSetNxHash
  split
  · refine plain_bind (plain_check fun _ => plain_withLock (plain_bind (plain_get fun r hr => ?_)))
    split
    · exact plain_pure trivial
    · have h0 : (Val.hash []).Of e A := fun _ hx => by cases hx
      refine plain_bind (plain_set (h.key (by decide)) h0 fun _ => plain_bind (plain_put (of_hSet h0 ?_ (.inr ?_)) (plain_pure trivial)))
      · exact h _ _ (.field (by decide) rfl)
      · exact h _ _ (.value rfl rfl)
  · exact plain_pure trivial

theorem plain_hValsHash : (hValsHash c cmd).Plain e A (Spoken fun b => e = true ∨ A .text b) := by
  unfold hValsHash
  split
  · refine plain_bind (plain_check fun _ => ?_)
    split
    · exact plain_pure told_none
    refine plain_withRLock (plain_bind (plain_get fun r hr => ?_))
    split
    · exact plain_pure told_none
    · refine plain_bind (plain_bind (plain_order fun ks hp => plain_pure (plain_pure (told_bulks fun x hx => ?_))))
      obtain ⟨f, hf, rfl⟩ := List.mem_map.1 hx
      exact hGet_of' hr.2 (hp.mem_iff.1 hf)
    · exact plain_pure told_err
  · exact plain_pure told_err

theorem plain_randLoop {keys : List Bytes} {n : Nat} {S : List Bytes → Prop} (h : ∀ l, (∀ x ∈ l, x ∈ keys) → S l) :
    (randLoop keys n).Plain e A S := by
  induction n generalizing S with
  | zero => exact plain_pure (h _ (by simp))
  | succ n ih =>
    unfold randLoop
    refine plain_bind (plain_order fun r hp => ?_)
    split
    · exact plain_fault
    · next k _ =>
      refine plain_bind (ih fun l hl => plain_pure (h _ fun x hx => ?_))
      rcases List.mem_cons.1 hx with rfl | hx
      · exact hp.mem_iff.1 (by simp)
      · exact hl x hx

theorem plain_randomKeys {keys : List Bytes} {n : Int} {m : Nat} {S : List Bytes → Prop} (h : ∀ l, (∀ x ∈ l, x ∈ keys) → S l) :
    (randomKeys c keys n m).Plain e A S := by
  unfold randomKeys
  split
  · exact plain_pure (h _ (by simp))
  split
  · exact plain_bind (plain_order fun r hp => plain_pure (h _ fun x hx => hp.mem_iff.1 (List.mem_of_mem_take hx)))
  split
  · exact plain_fault
  · exact plain_randLoop h

theorem plain_hRandFieldBody {k : Bytes} {n : Int} {b : Bool} :
    (hRandFieldBody c k n b).Plain e A (Spoken fun b => A .field b ∨ e = true ∨ A .text b) := by
  unfold hRandFieldBody
  refine plain_bind (plain_get fun r hr => ?_)
  split
  · exact plain_pure told_nil
  · split
    · refine plain_bind (plain_randomKeys fun l hl => ?_)
      split
      · exact plain_fault
      · refine plain_pure (told_bulk fun x hx => ?_)
        cases hx
        exact .inl (field_of hr.2 (hl _ (by simp)))
    split
    · exact plain_bind (plain_randomKeys fun l hl => plain_pure (told_pairs hr.2 hl))
    · exact plain_bind (plain_randomKeys fun l hl => plain_pure (told_words fun x hx => .inl (field_of hr.2 (hl x hx))))
  · exact plain_pure told_err

theorem plain_hRandFieldHash : (hRandFieldHash c cmd).Plain e A (Spoken fun b => A .field b ∨ e = true ∨ A .text b) := by
  unfold hRandFieldHash; repeat' first | exact plain_hRandFieldBody | plainstep

/-! ### Lists -/

theorem plain_lIndexList : (lIndexList c cmd).Plain e A (Spoken (A .elem)) := by
  unfold lIndexList
  split
  · refine plain_bind (plain_check fun _ => ?_)
    split
    · exact plain_pure told_nil
    split
    · exact plain_pure told_err
    refine plain_withRLock (plain_bind (plain_get fun r hr => ?_))
    split
    · exact plain_pure told_nil
    · split
      · exact plain_fault
      · exact plain_pure told_nil
      · next l _ p _ =>
        refine plain_pure (told_bulk fun x hx => ?_)
        have : some x ∈ l := by
          rw [List.getD_eq_getElem?_getD] at hx
          cases hg : l[p]? with
          | none => rw [hg] at hx; cases hx
          | some y => rw [hg] at hx; have hx : y = some x := hx; subst hx; exact List.mem_of_getElem? hg
        exact hr.2 _ this
    · exact plain_pure told_err
  · exact plain_pure told_err

theorem lInsertBefore_mem {v p x : Slice} {l : ListT} (h : x ∈ lInsertBefore v p l) : x = v ∨ x ∈ l := by
  induction l with
  | nil => cases h
  | cons y l ih =>
    unfold lInsertBefore at h
    split at h <;> simp only [List.mem_cons] at h ⊢ <;> grind

theorem lInsertAfter_mem {v p x : Slice} {l l' : ListT} (h : lInsertAfter v p l = .ok l') (hx : x ∈ l') : x = v ∨ x ∈ l := by
  induction l generalizing l' with
  | nil => cases h; cases hx
  | cons y l ih =>
    unfold lInsertAfter at h
    cases hr : lInsertAfter v p l with
    | error f =>
      rw [hr] at h
      split at h
      · split at h <;> cases h
      · cases h
    | ok r =>
      have ih' := ih hr
      rw [hr] at h
      split at h
      · split at h
        · cases h
        · cases h; simp only [List.mem_cons] at hx ⊢; grind
      · cases h; simp only [List.mem_cons] at hx ⊢; grind

theorem plain_lInsertList (h : Brings A b!"linsert" cmd) : Mute e A (lInsertList c cmd) := by
  unfold lInsertList
  split
  · next n k w pivot val =>
    have hv : A .elem (str val) := h _ _ (.linsert rfl rfl)
    refine plain_bind (plain_check fun _ => ?_)
    split
    · exact plain_pure trivial
    dsimp only
    split
    · exact plain_pure trivial
    refine plain_withLock (plain_bind (plain_get fun r hr => ?_))
    split
    · exact plain_pure trivial
    · split
      · refine plain_bind (plain_put (fun x hx => ?_) ?_)
        · rcases lInsertBefore_mem hx with rfl | hx
          · exact hv
          · exact hr.2 x hx
        · repeat' plainstep
      · split
        · exact plain_fault
        · next hi =>
          refine plain_bind (plain_put (fun x hx => ?_) ?_)
          · rcases lInsertAfter_mem hi hx with rfl | hx
            · exact hv
            · exact hr.2 x hx
          · repeat' plainstep
    · exact plain_pure trivial
  · exact plain_pure trivial

/-- What a pop takes and leaves. -/
def Pops (pop : ListT → Option (Slice × ListT)) : Prop := ∀ l v l', pop l = some (v, l') → v ∈ l ∧ ∀ x ∈ l', x ∈ l

theorem pops_l : Pops lPop := by
  intro l v l' h
  cases l with
  | nil => cases h
  | cons a l => cases h; exact ⟨by simp, fun x hx => List.mem_cons_of_mem _ hx⟩

theorem pops_r : Pops rPop := by
  intro l v l' h
  unfold rPop at h
  split at h
  · cases h
  · next hl => cases h; exact ⟨List.mem_of_getLast? hl, fun x hx => (List.dropLast_sublist l).subset hx⟩

theorem popLoop_mem {pop : ListT → Option (Slice × ListT)} (hp : Pops pop) (n : Nat) (l : ListT) :
    (∀ x ∈ (popLoop pop n l).1, x ∈ l) ∧ ∀ x ∈ (popLoop pop n l).2, x ∈ l := by
  induction n generalizing l with
  | zero => exact ⟨by simp [popLoop], by simp [popLoop]⟩
  | succ n ih =>
    unfold popLoop
    split
    · simp
    · next v l' h =>
      obtain ⟨h1, h2⟩ := hp _ _ _ h
      obtain ⟨h3, h4⟩ := ih l'
      refine ⟨fun x hx => ?_, fun x hx => h2 x (h4 x hx)⟩
      rcases List.mem_cons.1 hx with rfl | hx
      · exact h1
      · exact h2 x (h3 x hx)

theorem plain_lMoveList (h : Brings A b!"lmove" cmd) : (lMoveList c cmd).Plain e A (Spoken (A .elem)) := by
  unfold lMoveList
  split
  · refine plain_bind (plain_check fun _ => ?_)
    split
    · exact plain_pure told_nil
    refine plain_bind (plain_check fun _ => ?_)
    dsimp only
    split
    · exact plain_pure told_err
    refine plain_withMLock (plain_bind (plain_get fun r hr => ?_))
    split
    · exact plain_pure told_nil
    refine plain_bind (plain_getOrCreate (h _ _ (.target (by decide) rfl)) (fun x hx => by cases hx) fun d hd => ?_)
    split
    · next sl =>
      unfold lMoveBody
      split
      · next dl =>
        split
        · exact plain_fault
        · next v sl' hpop =>
          have hm : v ∈ sl ∧ ∀ x ∈ sl', x ∈ sl := by
            split at hpop
            · exact pops_l _ _ _ hpop
            · exact pops_r _ _ _ hpop
          have hs : (Val.list sl').Of e A := fun x hx => hr.2 x (hm.2 x hx)
          have hv : A .elem (str v) := hr.2 v hm.1
          refine plain_bind (plain_put hs ?_)
          dsimp only
          refine plain_bind (plain_put (fun x hx => ?_) (plain_bind (plain_cleanup (plain_pure (told_bulk fun y hy => ?_)))))
          · have this {P : Prop} [Decidable P] : ∀ x ∈ (if P then sl' else dl), A .elem (str x) := by
              split
              · exact hs
              · exact hd
            split at hx
            · rcases List.mem_cons.1 hx with rfl | hx
              · exact hv
              · exact this x hx
            · rcases List.mem_append.1 hx with hx | hx
              · exact this x hx
              · rw [List.mem_singleton.1 hx]; exact hv
          · subst hy; exact hv
      · exact plain_bind (plain_cleanup (plain_pure told_err))
    · exact plain_pure told_err
  · exact plain_pure told_err

theorem plain_popBody {pop : ListT → Option (Slice × ListT)} (hp : Pops pop) {k : Bytes} {n : Int} :
    (popBody pop k n).Plain e A (Spoken (A .elem)) := by
  unfold popBody
  refine plain_bind (plain_get fun r hr => ?_)
  split
  · exact plain_pure told_nil
  · split
    · split
      · exact plain_bind (plain_cleanup (plain_pure told_nil))
      · next v l' hl =>
        obtain ⟨h1, h2⟩ := hp _ _ _ hl
        refine plain_bind (plain_put (fun x hx => hr.2 x (h2 x hx)) (plain_bind (plain_cleanup (plain_pure (told_bulk fun x hx => ?_)))))
        subst hx
        exact hr.2 _ h1
    · refine plain_bind (plain_put (fun x hx => hr.2 x ((popLoop_mem hp _ _).2 x hx)) (plain_bind (plain_cleanup (plain_pure ?_))))
      exact told_bulks fun x hx => hr.2 x ((popLoop_mem hp _ _).1 x hx)
  · exact plain_pure told_err

theorem plain_popList {pop : ListT → Option (Slice × ListT)} (hp : Pops pop) : (popList pop c cmd).Plain e A (Spoken (A .elem)) := by
  unfold popList; repeat' first | exact plain_popBody hp | plainstep

theorem foldl_push_mem {push : ListT → Slice → ListT} (hp : ∀ l v x, x ∈ push l v → x = v ∨ x ∈ l) {es : List Slice} {l : ListT} {x : Slice}
    (h : x ∈ es.foldl push l) : x ∈ es ∨ x ∈ l := by
  induction es generalizing l with
  | nil => exact .inr h
  | cons a es ih =>
    rcases ih h with h | h
    · exact .inl (List.mem_cons_of_mem _ h)
    · rcases hp _ _ _ h with rfl | h
      · exact .inl (by simp)
      · exact .inr h

theorem lPush_mem : ∀ (l : ListT) (v x : Slice), x ∈ lPush l v → x = v ∨ x ∈ l := fun _ _ _ h => List.mem_cons.1 h
theorem rPush_mem : ∀ (l : ListT) (v x : Slice), x ∈ rPush l v → x = v ∨ x ∈ l := fun l v x h => by
  rcases List.mem_append.1 h with h | h
  · exact .inr h
  · exact .inl (List.mem_singleton.1 h)

theorem plain_pushList {push : ListT → Slice → ListT} (hp : ∀ l v x, x ∈ push l v → x = v ∨ x ∈ l) {w : Bytes} (h : Brings A w cmd)
    (hm : w ∈ makers) (hw : w ∈ [b!"lpush", b!"rpush", b!"lpushx", b!"rpushx"]) : Mute e A (pushList push c cmd) := by
  unfold pushList
  split
  · refine plain_bind (plain_check fun _ => plain_withLock (plain_bind (plain_getOrCreate (h.key hm) (fun x hx => by cases hx) fun d hd => ?_)))
    split
    · refine plain_bind (plain_put (fun x hx => ?_) (plain_pure trivial))
      rcases foldl_push_mem hp hx with hx | hx
      · obtain ⟨i, hi⟩ := List.mem_iff_getElem?.1 hx
        exact h _ _ (.push (i := i) hw hi)
      · exact hd x hx
    · exact plain_pure trivial
  · exact plain_pure trivial

theorem plain_pushXList {push : ListT → Slice → ListT} (hp : ∀ l v x, x ∈ push l v → x = v ∨ x ∈ l) {w : Bytes} (h : Brings A w cmd)
    (hw : w ∈ [b!"lpush", b!"rpush", b!"lpushx", b!"rpushx"]) : Mute e A (pushXList push c cmd) := by
  unfold pushXList
  split
  · refine plain_bind (plain_check fun _ => ?_)
    split
    · exact plain_pure trivial
    refine plain_withLock (plain_bind (plain_get fun r hr => ?_))
    split
    · exact plain_pure trivial
    · refine plain_bind (plain_put (fun x hx => ?_) (plain_pure trivial))
      rcases foldl_push_mem hp hx with hx | hx
      · obtain ⟨i, hi⟩ := List.mem_iff_getElem?.1 hx
        exact h _ _ (.push (i := i) hw hi)
      · exact hr.2 x hx
    · exact plain_pure trivial
  · exact plain_pure trivial

theorem plain_lRangeList : (lRangeList c cmd).Plain e A (Spoken (A .elem)) := by
  unfold lRangeList
  split
  · refine plain_bind (plain_check fun _ => ?_)
    split
    · exact plain_pure told_nilArr
    split
    · refine plain_withRLock (plain_bind (plain_get fun r hr => ?_))
      split
      · exact plain_pure told_nilArr
      · refine plain_pure (told_bulks fun x hx => hr.2 x ?_)
        unfold lRange at hx
        split at hx
        · cases hx
        · exact List.mem_of_mem_take (List.mem_of_mem_drop hx)
      · exact plain_pure told_err
    · exact plain_pure told_err
  · exact plain_pure told_err

theorem removeLoop_mem {v : Slice} {m : Int} {n : Nat} {l : ListT} {x : Slice} (h : x ∈ (removeLoop v m n l).1) : x ∈ l := by
  induction l generalizing n with
  | nil => exact h
  | cons y l ih =>
    unfold removeLoop at h
    split at h
    · split at h
      · exact List.mem_cons_of_mem _ (ih h)
      · rcases List.mem_cons.1 h with rfl | h
        · simp
        · exact List.mem_cons_of_mem _ (ih h)
    · exact h

theorem lRemove_mem {v : Slice} {m : Int} {l : ListT} {x : Slice} (h : x ∈ (lRemove l v m).1) : x ∈ l := by
  unfold lRemove at h
  split at h
  · exact h
  · dsimp only at h
    generalize (if m = 0 then (l.length : Int) else m) = m' at h
    split at h
    · exact removeLoop_mem h
    · exact List.mem_reverse.1 (removeLoop_mem (List.mem_reverse.1 h))

theorem plain_lRemList : Mute e A (lRemList c cmd) := by
  unfold lRemList
  split
  · refine plain_bind (plain_check fun _ => ?_)
    split
    · exact plain_pure trivial
    split
    · exact plain_pure trivial
    refine plain_withLock (plain_bind (plain_get fun r hr => ?_))
    split
    · exact plain_pure trivial
    · exact plain_bind (plain_put (fun x hx => hr.2 x (lRemove_mem hx)) (plain_bind (plain_cleanup (plain_pure trivial))))
    · exact plain_pure trivial
  · exact plain_pure trivial

theorem plain_lSetList (h : Brings A b!"lset" cmd) : Mute e A (lSetList c cmd) := by
  unfold lSetList
  split
  · next n k i val =>
    have hv : A .elem (str val) := h _ _ (.lset rfl rfl)
    refine plain_bind (plain_check fun _ => ?_)
    split
    · exact plain_pure trivial
    split
    · exact plain_pure trivial
    refine plain_withLock (plain_bind (plain_get fun r hr => ?_))
    split
    · exact plain_pure trivial
    · split
      · exact plain_fault
      · exact plain_pure trivial
      · next hl =>
        refine plain_bind (plain_put (fun x hx => ?_) (plain_pure trivial))
        unfold lSet at hl
        split at hl <;> cases hl
        rcases List.mem_or_eq_of_mem_set hx with hx | rfl
        · exact hr.2 x hx
        · exact hv
    · exact plain_pure trivial
  · exact plain_pure trivial

theorem plain_lTrimList : Mute e A (lTrimList c cmd) := by
  unfold lTrimList
  split
  · refine plain_bind (plain_check fun _ => ?_)
    split
    · exact plain_pure trivial
    split
    · refine plain_withLock (plain_bind (plain_get fun r hr => ?_))
      split
      · exact plain_pure trivial
      · split
        · exact plain_fault
        · next hl =>
          refine plain_bind (plain_put (fun x hx => hr.2 x ?_) (plain_bind (plain_cleanup (plain_pure trivial))))
          unfold lTrim at hl
          split at hl
          · cases hl; cases hx
          · split at hl
            · cases hl
            · cases hl; exact List.mem_of_mem_take (List.mem_of_mem_drop hx)
      · exact plain_pure trivial
    · exact plain_pure trivial
  · exact plain_pure trivial
end

section
variable {e : Bool} {A : Role → Bytes → Prop} {c : Cfg} {P : Bytes → Prop} {T : Data → Prop} (cmd : List Slice)

/-! ### Sets -/

theorem of_nil : (Val.set []).Of e A := ⟨List.nodup_nil, by simp⟩

theorem of_sAdd {s : SetT} {k : Bytes} (hs : (Val.set s).Of e A) (hk : A .member k) : (Val.set (sAdd s k).1).Of e A :=
  ⟨nodup_sAdd hs.1 k, fun x hx => ((mem_sAdd s k x).1 hx).elim (fun h => h ▸ hk) fun h => hs.2 x h⟩

theorem of_sRemove {s : SetT} {k : Bytes} (hs : (Val.set s).Of e A) : (Val.set (sRemove s k).1).Of e A := by
  rw [sRemove_fst]
  exact ⟨hs.1.filter _, fun x hx => hs.2 x (List.mem_filter.1 hx).1⟩

theorem of_sAddLoop {s : SetT} {n : Nat} {l : List Slice} (hs : (Val.set s).Of e A) (hl : ∀ x ∈ l, A .member (str x)) :
    (Val.set (sAddLoop s n l).1).Of e A := by
  induction l generalizing s n with
  | nil => exact hs
  | cons k l ih => exact ih (of_sAdd hs (hl k (by simp))) fun x hx => hl x (List.mem_cons_of_mem _ hx)

theorem of_sRemLoop {s : SetT} {n : Nat} {l : List Slice} (hs : (Val.set s).Of e A) : (Val.set (sRemLoop s n l).1).Of e A := by
  induction l generalizing s n with
  | nil => exact hs
  | cons k l ih => exact ih (of_sRemove hs)

theorem of_sAddAll {l : List Bytes} (hl : ∀ x ∈ l, A .member x) : (Val.set (sAddAll [] l)).Of e A := by
  obtain ⟨h1, h2⟩ := sAddAll_spec l [] List.nodup_nil
  exact ⟨h1, fun x hx => ((h2 x).1 hx).elim (fun h => by cases h) (hl x)⟩

/-- The result of a set operation consists of members of the operands. -/
def Mixes (op : SetT → List SetT → SetT) : Prop := ∀ s sets x, x ∈ op s sets → x ∈ s ∨ ∃ t ∈ sets, x ∈ t

theorem mixes_inter : Mixes sIntersect := fun s sets x h => .inl (((sIntersect_spec s sets).2 x).1 h).1
theorem mixes_union : Mixes sUnion := fun s sets x h => ((sUnion_spec s sets).2 x).1 h
theorem mixes_diff : Mixes sDifference := fun s sets x h => .inl (((sDifference_spec s sets).2 x).1 h).1

theorem plain_sAddSet (h : Brings A b!"sadd" cmd) : Mute e A (sAddSet c cmd) := by
  unfold sAddSet
  split
  · refine plain_bind (plain_check fun _ => plain_withLock (plain_bind (plain_getOrCreate (h.key (by decide)) of_nil fun d hd => ?_)))
    split
    · refine plain_bind (plain_put (of_sAddLoop hd fun x hx => ?_) (plain_pure trivial))
      obtain ⟨i, hi⟩ := List.mem_iff_getElem?.1 hx
      exact h _ _ (.add (i := i) rfl hi)
    · exact plain_pure trivial
  · exact plain_pure trivial

theorem plain_liveKeys {acc : List Bytes} {ks : List Slice} : (liveKeys c acc ks).Plain e A fun _ => True := by
  induction ks generalizing acc with
  | nil => exact plain_pure trivial
  | cons k ks ih =>
    unfold liveKeys
    refine plain_bind (plain_check fun _ => ?_)
    split <;> exact ih

theorem plain_getSets {acc : List SetT} {ks : List Bytes} (ha : ∀ s ∈ acc, ∀ x ∈ s, A .member x) :
    (getSets acc ks).Plain e A fun r => ∀ l, r = some l → ∀ s ∈ l, ∀ x ∈ s, A .member x := by
  induction ks generalizing acc with
  | nil => exact plain_pure fun l hl => by cases hl; exact ha
  | cons k ks ih =>
    unfold getSets
    refine plain_bind (plain_get fun r hr => ?_)
    split
    · refine ih fun s hs => ?_
      rcases List.mem_append.1 hs with hs | hs
      · exact ha s hs
      · simp at hs; subst hs; simp
    · refine ih fun s hs => ?_
      rcases List.mem_append.1 hs with hs | hs
      · exact ha s hs
      · simp at hs; subst hs; exact hr.2.2
    · exact plain_pure fun l hl => by cases hl

theorem plain_getSetsSkip {acc : List SetT} {ks : List Bytes} (ha : ∀ s ∈ acc, ∀ x ∈ s, A .member x) :
    (getSetsSkip acc ks).Plain e A fun r => ∀ l, r = some l → ∀ s ∈ l, ∀ x ∈ s, A .member x := by
  induction ks generalizing acc with
  | nil => exact plain_pure fun l hl => by cases hl; exact ha
  | cons k ks ih =>
    unfold getSetsSkip
    refine plain_bind (plain_get fun r hr => ?_)
    split
    · exact ih ha
    · refine ih fun s hs => ?_
      rcases List.mem_append.1 hs with hs | hs
      · exact ha s hs
      · simp at hs; subst hs; exact hr.2.2
    · exact plain_pure fun l hl => by cases hl

theorem plain_setOpSet {op : SetT → List SetT → SetT} (ho : Mixes op) : (setOpSet op c cmd).Plain e A (Spoken (A .member)) := by
  unfold setOpSet
  split
  · refine plain_bind (plain_liveKeys.mono fun keys _ => plain_withMRLock ?_)
    cases keys with
    | nil => exact plain_fault
    | cons key rest =>
      have go (s : SetT) (hs : ∀ x ∈ s, A .member x) : Prog.Plain e A (Spoken (A .member)) (match rest with
          | [] => do
            let ms ← sMembers s
            return appendedArr ms
          | _ => do
            match ← getSets [] rest with
            | none => return eWrong
            | some sets => do
              let ms ← sMembers (op s sets)
              return appendedArr ms) := by
        split
        · exact plain_bind (plain_order fun ms hp => plain_pure (told_appended fun x hx => hs x (hp.mem_iff.1 hx)))
        · refine plain_bind ((plain_getSets (by simp)).mono fun r hr => ?_)
          split
          · exact plain_pure told_err
          · refine plain_bind (plain_order fun ms hp => plain_pure (told_appended fun x hx => ?_))
            rcases ho _ _ _ (hp.mem_iff.1 hx) with h | ⟨t, ht, h⟩
            · exact hs x h
            · exact hr _ rfl t ht x h
      refine plain_bind (plain_get fun r hr => ?_)
      dsimp only
      rcases r with _ | v
      · exact go [] (by simp)
      rcases v with _ | _ | _ | s
      case some.set => exact go s hr.2.2
      all_goals exact plain_pure told_err
  · exact plain_pure told_err

theorem plain_storeDest {k : Bytes} {b : Bool} {s : SetT} {d : Data} (hk : A .key k) (hs : (Val.set s).Of e A) :
    Mute e A (storeDest k b s d) := by
  unfold storeDest
  refine plain_bind (plain_set hk hs fun _ => ?_)
  repeat' plainstep

theorem plain_setOpStoreSet {op : SetT → List SetT → SetT} (ho : Mixes op) {w : Bytes} (h : Brings A w cmd) (hw : w ∈ makers) :
    Mute e A (setOpStoreSet op c cmd) := by
  unfold setOpStoreSet
  split
  · next n d k ks =>
    have hk : A .key (str d) := h.key hw
    refine plain_bind (plain_check fun _ => plain_bind (plain_liveKeys.mono fun keys _ => ?_))
    cases keys with
    | nil => exact plain_pure trivial
    | cons key rest =>
      refine plain_withMLock ?_
      have go (s : SetT) (hs : ∀ x ∈ s, A .member x) : Mute e A (do
          let old ← dictGet (str d)
          match rest with
          | [] => do
            let ms ← sMembers s
            let destSet := sAddAll [] ms
            storeDest (str d) old.isSome destSet (rInt destSet.length)
          | _ => do
            match ← getSetsSkip [] rest with
            | none => storeDest (str d) old.isSome [] eWrong
            | some sets => do
              let ms ← sMembers (op s sets)
              let destSet := sAddAll [] ms
              storeDest (str d) old.isSome destSet (rInt destSet.length)) := by
        refine plain_bind (plain_get fun old _ => ?_)
        split
        · exact plain_bind (plain_order fun ms hp => plain_storeDest hk (of_sAddAll fun x hx => hs x (hp.mem_iff.1 hx)))
        · refine plain_bind ((plain_getSetsSkip (by simp)).mono fun r hr => ?_)
          split
          · exact plain_storeDest hk of_nil
          · refine plain_bind (plain_order fun ms hp => plain_storeDest hk (of_sAddAll fun x hx => ?_))
            rcases ho _ _ _ (hp.mem_iff.1 hx) with h | ⟨t, ht, h⟩
            · exact hs x h
            · exact hr _ rfl t ht x h
      refine plain_bind (plain_get fun r hr => ?_)
      dsimp only
      rcases r with _ | v
      · exact go [] (by simp)
      rcases v with _ | _ | _ | s
      case some.set => exact go s hr.2.2
      all_goals exact plain_pure trivial
  · exact plain_pure trivial

theorem plain_sMembersSet : (sMembersSet c cmd).Plain e A (Spoken (A .member)) := by
  unfold sMembersSet
  split
  · refine plain_bind (plain_check fun _ => ?_)
    split
    · exact plain_pure told_nilArr
    refine plain_withRLock (plain_bind (plain_get fun r hr => ?_))
    split
    · exact plain_pure told_nilArr
    · exact plain_bind (plain_order fun ms hp => plain_pure (told_appended fun x hx => hr.2.2 x (hp.mem_iff.1 hx)))
    · exact plain_pure told_err
  · exact plain_pure told_err

theorem plain_sMoveSet : Mute e A (sMoveSet c cmd) := by
  unfold sMoveSet
  split
  · next n a b m =>
    refine plain_bind (plain_check fun _ => ?_)
    split
    · exact plain_pure trivial
    refine plain_bind (plain_check fun _ => ?_)
    split
    · exact plain_pure trivial
    refine plain_withMLock (plain_bind (plain_get fun r hr => ?_))
    split
    · exact plain_pure trivial
    · next ss =>
      refine plain_bind (plain_get fun r2 hr2 => ?_)
      split
      · exact plain_bind (plain_cleanup (plain_pure trivial))
      · next ds =>
        split
        · exact plain_bind (plain_cleanup (plain_pure trivial))
        · next hm =>
          have h1 : (Val.set (sRemove ss (str m)).1).Of e A := of_sRemove hr.2
          refine plain_bind (plain_put h1 ?_)
          dsimp only
          refine plain_bind (plain_put (of_sAdd ?_ (hr.2.2 _ ?_)) (plain_bind (plain_cleanup (plain_pure trivial))))
          · split
            · exact h1
            · exact hr2.2
          · simpa [sHas] using hm
      · exact plain_bind (plain_cleanup (plain_pure trivial))
    · exact plain_pure trivial
  · exact plain_pure trivial

theorem plain_sPop {s : SetT} {S : Bytes × SetT → Prop} (h0 : s = [] → S ([], s))
    (h : ∀ k, k ∈ s → S (k, s.filter fun x => x != k)) : (sPop s).Plain e A S := by
  unfold sPop
  refine plain_bind (plain_order fun ms hp => ?_)
  split
  · exact plain_pure (h0 (List.nil_perm.1 hp))
  · exact plain_pure (h _ (hp.mem_iff.1 (by simp)))

theorem of_filter {s : SetT} {p : Bytes → Bool} (hs : (Val.set s).Of e A) : (Val.set (s.filter p)).Of e A :=
  ⟨hs.1.filter _, fun x hx => hs.2 x (List.mem_filter.1 hx).1⟩

theorem plain_sPopLoop {s : SetT} {acc : List Bytes} {n : Nat} (hs : (Val.set s).Of e A) (ha : ∀ x ∈ acc, A .member x) (hn : n ≤ s.length) :
    (sPopLoop s acc n).Plain e A fun r => (∀ x ∈ r.1, A .member x) ∧ (Val.set r.2).Of e A := by
  induction n generalizing s acc with
  | zero => exact plain_pure ⟨ha, hs⟩
  | succ n ih =>
    unfold sPopLoop
    refine plain_bind (plain_sPop (fun h => by subst h; simp at hn) fun k hk => ih (of_filter hs) (fun x hx => ?_) ?_)
    · rcases List.mem_append.1 hx with hx | hx
      · exact ha x hx
      · rw [List.mem_singleton.1 hx]; exact hs.2 k hk
    · rw [← List.Nodup.erase_eq_filter hs.1, List.length_erase_of_mem hk]
      omega

theorem plain_sPopBody {k : Bytes} {n : Option Int} : (sPopBody k n).Plain e A (Spoken (A .member)) := by
  unfold sPopBody
  refine plain_bind (plain_get fun r hr => ?_)
  split
  · exact plain_pure told_nil
  · next s =>
    split
    · refine plain_bind (plain_sPop (fun h => ?_) fun k hk => ?_)
      · subst h
        refine plain_bind (plain_put of_nil (plain_bind (plain_cleanup ?_)))
        exact plain_pure told_nil
      · refine plain_bind (plain_put (of_filter hr.2) (plain_bind (plain_cleanup ?_)))
        split
        · exact plain_pure told_nil
        · exact plain_pure (told_bulk fun x hx => by cases hx; exact hr.2.2 _ hk)
    · next m =>
      refine plain_bind ((plain_sPopLoop hr.2 (by simp) ?_).mono fun r hr => ?_)
      · split
        · exact Nat.le_refl _
        · omega
      · exact plain_bind (plain_put hr.2 (plain_bind (plain_cleanup (plain_pure (told_words hr.1)))))
  · exact plain_pure told_err

theorem plain_sPopSet : (sPopSet c cmd).Plain e A (Spoken (A .member)) := by
  unfold sPopSet; repeat' first | exact plain_sPopBody | plainstep

theorem plain_sRandBody {k : Bytes} {n : Option Int} : (sRandBody c k n).Plain e A (Spoken (A .member)) := by
  unfold sRandBody
  refine plain_bind (plain_get fun r hr => ?_)
  split
  · exact plain_pure told_nil
  · split
    · refine plain_bind (plain_randomKeys fun l hl => ?_)
      split
      · exact plain_fault
      · split
        · exact plain_pure told_nil
        · exact plain_pure (told_bulk fun x hx => by cases hx; exact hr.2.2 _ (hl _ (by simp)))
    · repeat' split
      all_goals first
        | exact plain_fault
        | exact plain_bind (plain_randomKeys fun l hl => plain_pure (told_words fun x hx => hr.2.2 x (hl x hx)))
  · exact plain_pure told_err

theorem plain_sRandMemberSet : (sRandMemberSet c cmd).Plain e A (Spoken (A .member)) := by
  unfold sRandMemberSet; repeat' first | exact plain_sRandBody | plainstep

theorem plain_sRemSet : Mute e A (sRemSet c cmd) := by
  unfold sRemSet
  split
  · refine plain_bind (plain_check fun _ => plain_withLock (plain_bind (plain_get fun r hr => ?_)))
    split
    · exact plain_pure trivial
    · exact plain_bind (plain_put (of_sRemLoop hr.2) (plain_pure trivial))
    · exact plain_pure trivial
  · exact plain_pure trivial
end

/-! ### All commands -/

/-- Command `w`, executed by `f`, deals in words of `A` only. -/
def Deals (e : Bool) (A : Role → Bytes → Prop) (w : Bytes) (f : List Slice → Prog Data) : Prop :=
  ∀ cmd, Brings A w cmd → (e = true ∨ w ∉ editors) → (f cmd).Plain e A (Reply e A w)

theorem deals_gift {e : Bool} {A : Role → Bytes → Prop} {w : Bytes} {f : List Slice → Prog Data} (g : Gift) (h : gifts.lookup w = some g)
    (hf : ∀ cmd, Brings A w cmd → (f cmd).Plain e A (Spoken fun b => g.Fits e A b)) : Deals e A w f :=
  fun cmd hb _ => (hf cmd hb).mono fun _ hd => reply_of h hd

theorem deals_still {e : Bool} {A : Role → Bytes → Prop} {w : Bytes} {f : List Slice → Prog Data} (h : gifts.lookup w = none)
    (hf : ∀ cmd, Brings A w cmd → Mute e A (f cmd)) : Deals e A w f :=
  fun cmd hb _ => (hf cmd hb).mono fun _ _ => reply_none h

theorem deals_edit {e : Bool} {A : Role → Bytes → Prop} {w : Bytes} {f : List Slice → Prog Data} (h : gifts.lookup w = none) (hw : w ∈ editors)
    (hf : ∀ cmd, e = true → Brings A w cmd → Mute e A (f cmd)) : Deals e A w f :=
  fun cmd hb he => (hf cmd (he.elim id fun h => absurd hw h) hb).mono fun _ _ => reply_none h

theorem table_deals (c : Cfg) (e : Bool) (A : Role → Bytes → Prop) : ∀ x ∈ cmdTable c, Deals e A x.1 x.2 := by
  simp only [cmdTable, List.forall_mem_cons]
  exact ⟨deals_still rfl fun _ _ => plain_pingKeys _, deals_still rfl fun _ _ => plain_delKey _, deals_still rfl fun _ _ => plain_existsKey _,
    deals_gift .keys rfl fun _ _ => plain_keysKey _, deals_still rfl fun _ _ => plain_expireKey _,
    deals_still rfl fun _ _ => plain_persistKey _, deals_still rfl fun _ _ => plain_ttlKey _, deals_still rfl fun _ h => plain_renameKey _ h,
    deals_still rfl fun _ _ => plain_typeKey _, deals_gift .text rfl fun _ h => plain_setString _ h,
    deals_gift .text rfl fun _ _ => plain_getString _, deals_gift .part rfl fun _ _ => plain_getRangeString _,
    deals_edit rfl (by decide) fun _ he h => plain_setRangeString _ he h, deals_gift .text rfl fun _ _ => plain_mGetString _,
    deals_still rfl fun _ h => plain_mSetString _ h, deals_still rfl fun _ h => plain_setExString _ h,
    deals_still rfl fun _ h => plain_setNxString _ h, deals_still rfl fun _ _ => plain_strLenString _,
    deals_edit rfl (by decide) fun _ he _ => plain_incrString _ he, deals_edit rfl (by decide) fun _ he _ => plain_incrByString _ he,
    deals_edit rfl (by decide) fun _ he _ => plain_decrString _ he, deals_edit rfl (by decide) fun _ he _ => plain_decrByString _ he,
    deals_edit rfl (by decide) fun _ he h => plain_incrByFloatString _ he h, deals_edit rfl (by decide) fun _ he h => plain_appendString _ he h,
    deals_still rfl fun _ _ => plain_hDelHash _, deals_still rfl fun _ _ => plain_hExistsHash _, deals_gift .text rfl fun _ _ => plain_hGetHash _,
    deals_gift .pair rfl fun _ _ => plain_hGetAllHash _, deals_edit rfl (by decide) fun _ he h => plain_hIncrByHash _ he h,
    deals_edit rfl (by decide) fun _ he h => plain_hIncrByFloatHash _ he h, deals_gift (.of .field) rfl fun _ _ => plain_hKeysHash _,
    deals_still rfl fun _ _ => plain_hLenHash _, deals_gift .text rfl fun _ _ => plain_hMGetHash _,
    deals_still rfl fun _ h => plain_hMSetHash _ h, deals_still rfl fun _ h => plain_hSetHash _ h,
    deals_still rfl fun _ h => plain_hSetNxHash _ h, deals_gift .text rfl fun _ _ => plain_hValsHash _,
    deals_still rfl fun _ _ => plain_hStrLenHash _, deals_gift .pair rfl fun _ _ => plain_hRandFieldHash _,
    deals_gift (.of .elem) rfl fun _ _ => plain_lIndexList _, deals_still rfl fun _ h => plain_lInsertList _ h,
    deals_still rfl fun _ _ => plain_lLenList _, deals_gift (.of .elem) rfl fun _ h => plain_lMoveList _ h,
    deals_gift (.of .elem) rfl fun _ _ => plain_popList _ pops_l, deals_still rfl fun _ _ => plain_lPosList _,
    deals_still rfl fun _ h => plain_pushList _ lPush_mem h (by decide) (by decide),
    deals_still rfl fun _ h => plain_pushXList _ lPush_mem h (by decide), deals_gift (.of .elem) rfl fun _ _ => plain_lRangeList _,
    deals_still rfl fun _ _ => plain_lRemList _, deals_still rfl fun _ h => plain_lSetList _ h, deals_still rfl fun _ _ => plain_lTrimList _,
    deals_gift (.of .elem) rfl fun _ _ => plain_popList _ pops_r,
    deals_still rfl fun _ h => plain_pushList _ rPush_mem h (by decide) (by decide),
    deals_still rfl fun _ h => plain_pushXList _ rPush_mem h (by decide), deals_still rfl fun _ h => plain_sAddSet _ h,
    deals_still rfl fun _ _ => plain_sCardSet _, deals_gift (.of .member) rfl fun _ _ => plain_setOpSet _ mixes_diff,
    deals_still rfl fun _ h => plain_setOpStoreSet _ mixes_diff h (by decide), deals_gift (.of .member) rfl fun _ _ => plain_setOpSet _ mixes_inter,
    deals_still rfl fun _ h => plain_setOpStoreSet _ mixes_inter h (by decide), deals_still rfl fun _ _ => plain_sIsMemberSet _,
    deals_gift (.of .member) rfl fun _ _ => plain_sMembersSet _, deals_still rfl fun _ _ => plain_sMoveSet _,
    deals_gift (.of .member) rfl fun _ _ => plain_sPopSet _, deals_gift (.of .member) rfl fun _ _ => plain_sRandMemberSet _,
    deals_still rfl fun _ _ => plain_sRemSet _, deals_gift (.of .member) rfl fun _ _ => plain_setOpSet _ mixes_union,
    deals_still rfl fun _ h => plain_setOpStoreSet _ mixes_union h (by decide), by simp⟩

theorem dispatch_deals {c : Cfg} {e : Bool} {A : Role → Bytes → Prop} {n : Slice} {args : List Slice} {p : Prog Data}
    (h : dispatch c (n :: args) = .exec p) (hb : ∀ kd x, Stows (toLower (str n)) args kd x → A kd x)
    (he : e = true ∨ toLower (str n) ∉ editors) : p.Plain e A (Reply e A (toLower (str n))) := by
  unfold dispatch at h
  simp only at h
  split at h
  · cases h
  split at h
  next f hf =>
    cases h
    exact table_deals c e A _ (lookup_mem hf) _ hb he
  · cases h

end GRedis
