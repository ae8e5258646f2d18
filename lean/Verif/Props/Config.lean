import Verif.Model.Start
import Verif.Props.Dispatch
/-
Configuration files (C56), the log level (C59) and starting the server (C61).
-/
namespace GRedis
open Spec

/-! ### Lines and words -/

namespace Spec
/-- The characters with the Unicode property White_Space. -/
def whiteSpace : List Nat :=
  [9, 10, 11, 12, 13, 32, 0x85, 0xA0, 0x1680] ++ (List.range 11).map (0x2000 + ·) ++ [0x2028, 0x2029, 0x202F, 0x205F, 0x3000]

/-- The same in UTF-8. -/
def spaces : List Bytes := whiteSpace.map fun n => String.utf8EncodeChar (Char.ofNat n)

/-- Only white space. -/
def Blank (b : Bytes) : Prop := ∃ l : List Bytes, (∀ x ∈ l, x ∈ spaces) ∧ b = l.flatten

/-- Not empty and without white space. -/
def Word (w : Bytes) : Prop := w ≠ [] ∧ ∀ pre sp post, sp ∈ spaces → w ≠ pre ++ sp ++ post

/-- The words of a line: what is left between white space. -/
inductive Words : Bytes → List Bytes → Prop
  | blank {b} : Blank b → Words b []
  | last {b w} : Blank b → Word w → Words (b ++ w) [w]
  | word {b w sp rest ws} : Blank b → Word w → sp ∈ spaces → Words rest ws → Words (b ++ (w ++ (sp ++ rest))) (w :: ws)

/-- The words of the lines of a file: lines are what is left between line feeds, the last one is what follows the last line
feed. -/
inductive FileWords : Bytes → List (List Bytes) → Prop
  | last {l ws} : 10 ∉ l → Words l ws → FileWords l [ws]
  | line {l ws rest wss} : 10 ∉ l → Words l ws → FileWords rest wss → FileWords (l ++ 10 :: rest) (ws :: wss)
end Spec

theorem spaces_eq : spaceRunes = spaces := by decide +kernel

theorem space_ne {sp : Bytes} (h : sp ∈ spaces) : sp ≠ [] := by
  have : ∀ sp ∈ spaces, sp ≠ [] := by decide +kernel
  exact this sp h

theorem space_prefix : ∀ sp ∈ spaces, ∀ sp' ∈ spaces, sp <+: sp' → sp = sp' := by decide +kernel

theorem leadSpace_append {sp : Bytes} (h : sp ∈ spaces) (r : Bytes) : leadSpace (sp ++ r) = some sp := by
  unfold leadSpace
  rw [spaces_eq]
  cases hf : spaces.find? (·.isPrefixOf (sp ++ r)) with
  | none =>
    have := List.find?_eq_none.1 hf sp h
    simp [List.isPrefixOf_iff_prefix] at this
  | some sp' =>
    have h1 := List.mem_of_find?_eq_some hf
    have h2 : sp'.isPrefixOf (sp ++ r) := List.find?_some (p := fun x : Bytes => x.isPrefixOf (sp ++ r)) hf
    have h2 := List.isPrefixOf_iff_prefix.1 h2
    rcases List.prefix_or_prefix_of_prefix h2 (List.prefix_append sp r) with h3 | h3
    · rw [space_prefix _ h1 _ h h3]
    · rw [space_prefix _ h _ h1 h3]

theorem leadSpace_some {s sp : Bytes} (h : leadSpace s = some sp) : sp ∈ spaces ∧ ∃ r, s = sp ++ r := by
  unfold leadSpace at h
  rw [spaces_eq] at h
  refine ⟨List.mem_of_find?_eq_some h, ?_⟩
  have h2 : sp.isPrefixOf s := List.find?_some (p := fun x : Bytes => x.isPrefixOf s) h
  obtain ⟨r, hr⟩ := List.isPrefixOf_iff_prefix.1 h2
  exact ⟨r, hr.symm⟩

theorem fieldsAux_space {cur sp r : Bytes} (h : sp ∈ spaces) :
    fieldsAux cur (sp ++ r) = if cur.isEmpty then fieldsAux [] r else cur :: fieldsAux [] r := by
  rw [fieldsAux]
  split
  · next sp' hs =>
    rw [leadSpace_append h] at hs
    cases hs
    simp
  · next hs => rw [leadSpace_append h] at hs; cases hs

theorem fieldsAux_cons {cur cs : Bytes} {c : UInt8} (h : leadSpace (c :: cs) = none) : fieldsAux cur (c :: cs) = fieldsAux (cur ++ [c]) cs := by
  rw [fieldsAux]
  split
  · next hs => rw [h] at hs; cases hs
  · rfl

theorem fieldsAux_nil {cur : Bytes} : fieldsAux cur [] = if cur.isEmpty then [] else [cur] := by
  rw [fieldsAux]
  split
  · next hs => have := leadSpace_pos hs; simp at this
  · rfl

theorem fieldsAux_blank {b r : Bytes} (h : Blank b) : fieldsAux [] (b ++ r) = fieldsAux [] r := by
  obtain ⟨l, h1, rfl⟩ := h
  induction l with
  | nil => rfl
  | cons a l ih =>
    rw [List.flatten_cons, List.append_assoc, fieldsAux_space (h1 a (by simp))]
    exact ih fun x hx => h1 x (by simp [hx])

/-- The encoding of a white space character begins with a byte that occurs in none of them later. -/
theorem space_heads : ∀ sp ∈ spaces, ∀ sp' ∈ spaces, ∀ c, sp'.head? = some c → c ∉ sp.tail := by decide +kernel

theorem leadSpace_word {t rest : Bytes} (ht : t ≠ []) (hw : ∀ pre sp post, sp ∈ spaces → t ≠ pre ++ sp ++ post)
    (hr : rest = [] ∨ ∃ sp r, sp ∈ spaces ∧ rest = sp ++ r) : leadSpace (t ++ rest) = none := by
  cases hl : leadSpace (t ++ rest) with
  | none => rfl
  | some sp =>
    exfalso
    obtain ⟨h1, r, h2⟩ := leadSpace_some hl
    rcases List.append_eq_append_iff.1 h2 with ⟨u, h3, h4⟩ | ⟨u, h3, _⟩
    · rcases hr with rfl | ⟨sp', r', h5, rfl⟩
      · have : u = [] := by
          have := congrArg List.length h4; simp at this
          exact List.eq_nil_of_length_eq_zero (by omega)
        subst this
        exact hw [] sp [] h1 (by simp [h3])
      · cases u with
        | nil => exact hw [] sp [] h1 (by simp [h3])
        | cons c u =>
          cases sp' with
          | nil => exact space_ne h5 rfl
          | cons d sp' =>
            simp only [List.cons_append, List.cons.injEq] at h4
            obtain ⟨rfl, _⟩ := h4
            refine space_heads sp h1 _ h5 d rfl ?_
            rw [h3]
            cases t with
            | nil => exact absurd rfl ht
            | cons a t => simp
    · exact hw [] sp u h1 (by simp [h3])

theorem fieldsAux_word {w cur rest : Bytes} (hw : ∀ pre sp post, sp ∈ spaces → w ≠ pre ++ sp ++ post)
    (hr : rest = [] ∨ ∃ sp r, sp ∈ spaces ∧ rest = sp ++ r) : fieldsAux cur (w ++ rest) = fieldsAux (cur ++ w) rest := by
  induction w generalizing cur with
  | nil => simp
  | cons c w ih =>
    have := leadSpace_word (t := c :: w) (rest := rest) (by simp) hw hr
    rw [List.cons_append, fieldsAux_cons (by simpa using this), ih fun pre sp post hs he => hw (c :: pre) sp post hs (by simp [he])]
    simp

theorem fields_words {line : Bytes} {ws : List Bytes} (h : Words line ws) : fields line = ws := by
  unfold fields
  induction h with
  | @blank b hb => rw [← List.append_nil b, fieldsAux_blank hb, fieldsAux_nil]; rfl
  | @last b w hb hw =>
    rw [fieldsAux_blank hb, ← List.append_nil w, fieldsAux_word hw.2 (.inl rfl), fieldsAux_nil]
    simp [hw.1]
  | word hb hw hs _ ih =>
    rw [fieldsAux_blank hb, fieldsAux_word hw.2 (.inr ⟨_, _, hs, rfl⟩), fieldsAux_space hs, ih]
    simp [hw.1]

theorem Spec.Words.prepend {sp rest : Bytes} {ws : List Bytes} (h : sp ∈ spaces) (hw : Words rest ws) : Words (sp ++ rest) ws := by
  have hb {b : Bytes} (h2 : Blank b) : Blank (sp ++ b) := by
    obtain ⟨l, h3, rfl⟩ := h2
    refine ⟨sp :: l, ?_, rfl⟩
    intro x hx
    rcases List.mem_cons.1 hx with rfl | hx
    · exact h
    · exact h3 x hx
  cases hw with
  | blank h2 => exact .blank (hb h2)
  | last h2 h3 => rw [← List.append_assoc]; exact .last (hb h2) h3
  | word h2 h3 h4 h5 => rw [← List.append_assoc]; exact .word (hb h2) h3 h4 h5

theorem Spec.Words.append {sp line : Bytes} {ws : List Bytes} (h : sp ∈ spaces) (hw : Words line ws) : Words (line ++ sp) ws := by
  have e : Words [] [] := .blank ⟨[], by simp, rfl⟩
  induction hw with
  | blank h2 =>
    obtain ⟨l, h3, rfl⟩ := h2
    refine .blank ⟨l ++ [sp], ?_, by simp⟩
    intro x hx
    rcases List.mem_append.1 hx with hx | hx
    · exact h3 x hx
    · simp only [List.mem_singleton] at hx; exact hx ▸ h
  | @last b w h2 h3 => simpa using Words.word h2 h3 h e
  | word h2 h3 h4 _ ih => simpa using Words.word h2 h3 h4 ih

/-- Every line has words. -/
theorem words_total (line : Bytes) : Words line (fields line) := by
  have nb : Blank [] := ⟨[], by simp, rfl⟩
  have key : ∀ n cur s, s.length = n → (∀ pre post, cur ++ s = pre ++ post → pre.length < cur.length → leadSpace post = none) →
      Words (cur ++ s) (fieldsAux cur s) := by
    intro n
    induction n using Nat.strongRecOn with
    | ind n ih =>
      intro cur s hn hc
      have hword (hne : cur ≠ []) : Word cur := by
        refine ⟨hne, ?_⟩
        rintro pre sp post hs rfl
        have := hc pre (sp ++ (post ++ s)) (by simp) (by simp; have := List.length_pos_iff.2 (space_ne hs); omega)
        rw [leadSpace_append hs] at this
        cases this
      cases hl : leadSpace s with
      | some sp =>
        obtain ⟨hs, r, rfl⟩ := leadSpace_some hl
        rw [fieldsAux_space hs]
        have := ih r.length (by simp at hn; have := List.length_pos_iff.2 (space_ne hs); omega) [] r rfl (by simp)
        cases cur with
        | nil => exact Words.prepend (sp := sp) hs (by simpa using this)
        | cons a cur => exact .word nb (hword (by simp)) hs this
      | none =>
        cases s with
        | nil =>
          rw [fieldsAux_nil]
          cases cur with
          | nil => exact .blank nb
          | cons a cur => simpa using Words.last nb (hword (by simp))
        | cons c cs =>
          rw [fieldsAux_cons hl]
          have := ih cs.length (by simp at hn; omega) (cur ++ [c]) cs rfl ?_
          · simpa using this
          · intro pre post he hlt
            simp only [List.append_assoc, List.singleton_append] at he
            by_cases hp : pre.length < cur.length
            · exact hc pre post he hp
            · have hpl : pre.length = cur.length := by simp at hlt; omega
              obtain ⟨rfl, rfl⟩ := List.append_inj he hpl.symm
              exact hl
  exact key _ [] line rfl (by simp)

theorem words_unique {line : Bytes} {ws ws' : List Bytes} (h : Words line ws) (h' : Words line ws') : ws = ws' := by
  rw [← fields_words h, fields_words h']

theorem split_first {c : UInt8} {l : Bytes} (h : c ∈ l) : ∃ a b, l = a ++ c :: b ∧ c ∉ a := by
  induction l with
  | nil => simp at h
  | cons d l ih =>
    by_cases hd : c = d
    · exact ⟨[], l, by simp [hd], by simp⟩
    · obtain ⟨a, b, h1, h2⟩ := ih (by simpa [hd] using h)
      exact ⟨d :: a, b, by simp [h1], by simp [hd, h2]⟩

/-- Every file has lines and words. -/
theorem fileWords_total (file : Bytes) : ∃ wss, FileWords file wss := by
  have key : ∀ n, ∀ file : Bytes, file.length = n → ∃ wss, FileWords file wss := by
    intro n
    induction n using Nat.strongRecOn with
    | ind n ih =>
      intro file hn
      by_cases h : 10 ∈ file
      · obtain ⟨l, r, rfl, hl⟩ := split_first h
        obtain ⟨wss, hw⟩ := ih r.length (by simp at hn; omega) r rfl
        exact ⟨_, .line hl (words_total l) hw⟩
      · exact ⟨_, .last h (words_total file)⟩
  exact key _ file rfl

theorem readString_line {l rest : Bytes} (h : 10 ∉ l) : readString (l ++ 10 :: rest) = (l ++ [10], rest, false) := by
  induction l with
  | nil => simp [readString]
  | cons c l ih =>
    simp only [List.mem_cons, not_or] at h
    simp only [List.cons_append, readString, if_neg (Ne.symm h.1), ih h.2]

theorem readString_last {l : Bytes} (h : 10 ∉ l) : readString l = (l, [], true) := by
  induction l with
  | nil => simp [readString]
  | cons c l ih =>
    simp only [List.mem_cons, not_or] at h
    simp only [readString, if_neg (Ne.symm h.1), ih h.2]

/-! ### C56 -/

namespace Spec
/-- The settings. -/
inductive Setting where
  | host | port | logdir | loglevel | segnum | dbnum
  deriving DecidableEq

def Setting.name : Setting → Bytes
  | .host => b!"host"
  | .port => b!"port"
  | .logdir => b!"logdir"
  | .loglevel => b!"loglevel"
  | .segnum => b!"segnum"
  | .dbnum => b!"dbnum"

/-- A line with these words is about the setting: its first word is the name, in any letter case. -/
def About (x : Setting) (ws : List Bytes) : Prop := ∃ n, ws.head? = some n ∧ Folds n x.name

/-- The value is allowed. -/
def Setting.Valid (parseIP : Bytes → Bool) (x : Setting) (v : Bytes) : Prop :=
  match x with
  | .host => parseIP v = true
  | .logdir => True
  | .loglevel => True
  | _ => ∃ n, IntArg v n

/-- The configuration has this value; the log level is compared with names in lower case. -/
def Setting.Has (x : Setting) (c : Conf) (v : Bytes) : Prop :=
  match x with
  | .host => c.host = v
  | .port => IntArg v c.port
  | .logdir => c.logDir = v
  | .loglevel => ∀ w : Bytes, (∀ b ∈ w, b < 128) → (c.logLevel = w ↔ Folds v w)
  | .segnum => IntArg v c.segNum
  | .dbnum => IntArg v c.dbNum

/-- Two configurations agree on the setting. -/
def Setting.Same (x : Setting) (c c' : Conf) : Prop :=
  match x with
  | .host => c.host = c'.host
  | .port => c.port = c'.port
  | .logdir => c.logDir = c'.logDir
  | .loglevel => c.logLevel = c'.logLevel
  | .segnum => c.segNum = c'.segNum
  | .dbnum => c.dbNum = c'.dbNum

/-- The line is correct: if it is about a setting, it has a value and the value is allowed. -/
def LineOk (parseIP : Bytes → Bool) (ws : List Bytes) : Prop := ∀ x, About x ws → ∃ v, ws[1]? = some v ∧ x.Valid parseIP v

/-- The last line about the setting has the value `v`. -/
def LastGiven (x : Setting) (wss : List (List Bytes)) (v : Bytes) : Prop :=
  ∃ pre ws post, wss = pre ++ ws :: post ∧ About x ws ∧ ws[1]? = some v ∧ ∀ ws' ∈ post, ¬ About x ws'

/-- What a correct file makes of a configuration. -/
def Loaded (c : Conf) (wss : List (List Bytes)) (c' : Conf) : Prop :=
  ∀ x, (∀ v, LastGiven x wss v → x.Has c' v) ∧ ((∀ ws ∈ wss, ¬ About x ws) → x.Same c c')
end Spec

theorem name_ascii (x : Setting) : ∀ b ∈ x.name, b < 128 := by cases x <;> decide
theorem name_inj {x y : Setting} (h : x.name = y.name) : x = y := by revert h; cases x <;> cases y <;> decide

theorem about_unique {x y : Setting} {ws : List Bytes} (h1 : About x ws) (h2 : About y ws) : x = y := by
  obtain ⟨n, h3, h4⟩ := h1
  obtain ⟨m, h5, h6⟩ := h2
  rw [h3] at h5; cases h5
  exact name_inj (((toLower_folds (name_ascii x)).2 h4).symm.trans ((toLower_folds (name_ascii y)).2 h6))

/-- The effect of a line. -/
inductive LineEffect (parseIP : Bytes → Bool) (c : Conf) (ws : List Bytes) : ConfRes → Prop
  | none : (∀ x, ¬ About x ws) → LineEffect parseIP c ws (.ok c)
  | set {x v c'} : About x ws → ws[1]? = some v → x.Valid parseIP v → x.Has c' v → (∀ y, y ≠ x → y.Same c c') → LineEffect parseIP c ws (.ok c')
  | bad {x v} : About x ws → ws[1]? = some v → ¬ x.Valid parseIP v → LineEffect parseIP c ws .error
  | missing {x} : About x ws → ws[1]? = none → LineEffect parseIP c ws (.fault .indexOutOfRange)

theorem confLine_effect (parseIP : Bytes → Bool) (c : Conf) (name : Bytes) (args : List Bytes) :
    LineEffect parseIP c (name :: args) (confLine parseIP c name args) := by
  have ab {x : Setting} (h : toLower name = x.name) : About x (name :: args) := ⟨name, rfl, (toLower_folds (name_ascii x)).1 h⟩
  have nb {x : Setting} (h : toLower name ≠ x.name) : ¬ About x (name :: args) := by
    rintro ⟨n, h1, h2⟩
    cases h1
    exact h ((toLower_folds (name_ascii x)).2 h2)
  unfold confLine
  dsimp only
  split
  · next h =>
    cases args with
    | nil => exact .missing (ab (x := .host) h) rfl
    | cons v l =>
      simp only
      split
      · next hv => exact .set (ab (x := .host) h) rfl hv rfl fun y hy => by cases y <;> first | rfl | exact absurd rfl hy
      · next hv => exact .bad (ab (x := .host) h) rfl hv
  · split
    · next h =>
      cases args with
      | nil => exact .missing (ab (x := .port) h) rfl
      | cons v l =>
        simp only
        split
        · next i hv =>
          have hv := (atoi_iff _ _).1 hv
          exact .set (ab (x := .port) h) rfl ⟨i, hv⟩ hv fun y hy => by cases y <;> first | rfl | exact absurd rfl hy
        · next hv => exact .bad (ab (x := .port) h) rfl fun ⟨n, hn⟩ => by rw [(atoi_iff _ _).2 hn] at hv; cases hv
    · split
      · next h =>
        cases args with
        | nil => exact .missing (ab (x := .logdir) h) rfl
        | cons v l => exact .set (ab (x := .logdir) h) rfl trivial rfl fun y hy => by cases y <;> first | rfl | exact absurd rfl hy
      · split
        · next h =>
          cases args with
          | nil => exact .missing (ab (x := .loglevel) h) rfl
          | cons v l =>
            exact .set (ab (x := .loglevel) h) rfl trivial (fun w hw => toLower_folds hw) fun y hy => by
              cases y <;> first | rfl | exact absurd rfl hy
        · split
          · next h =>
            cases args with
            | nil => exact .missing (ab (x := .segnum) h) rfl
            | cons v l =>
              simp only
              split
              · next i hv =>
                have hv := (atoi_iff _ _).1 hv
                exact .set (ab (x := .segnum) h) rfl ⟨i, hv⟩ hv fun y hy => by cases y <;> first | rfl | exact absurd rfl hy
              · next hv => exact .bad (ab (x := .segnum) h) rfl fun ⟨n, hn⟩ => by rw [(atoi_iff _ _).2 hn] at hv; cases hv
          · split
            · next h =>
              cases args with
              | nil => exact .missing (ab (x := .dbnum) h) rfl
              | cons v l =>
                simp only
                split
                · next i hv =>
                  have hv := (atoi_iff _ _).1 hv
                  exact .set (ab (x := .dbnum) h) rfl ⟨i, hv⟩ hv fun y hy => by cases y <;> first | rfl | exact absurd rfl hy
                · next hv => exact .bad (ab (x := .dbnum) h) rfl fun ⟨n, hn⟩ => by rw [(atoi_iff _ _).2 hn] at hv; cases hv
            · next h1 h2 h3 h4 h5 h6 => exact .none fun x => by cases x <;> (apply nb; assumption)

theorem confLoop_end (parseIP : Bytes → Bool) (n : Nat) (c : Conf) : confLoop parseIP n c [] = .running := by
  induction n with
  | zero => rfl
  | succ n ih =>
    have h : fields [] = [] := fields_words (.blank ⟨[], by simp, rfl⟩)
    simp only [confLoop, readString, h, ih]

theorem confLoop_blank (parseIP : Bytes → Bool) (n : Nat) (c : Conf) {l rest : Bytes} (hl : 10 ∉ l) (hw : Words l []) :
    confLoop parseIP (n + 1) c (l ++ 10 :: rest) = confLoop parseIP n c rest := by
  have h : fields (l ++ [10]) = [] := fields_words (hw.append (by decide))
  simp only [confLoop, readString_line hl, h]

theorem confLoop_line (parseIP : Bytes → Bool) (n : Nat) (c : Conf) {l rest name : Bytes} {args : List Bytes} (hl : 10 ∉ l)
    (hw : Words l (name :: args)) : confLoop parseIP (n + 1) c (l ++ 10 :: rest) = match confLine parseIP c name args with
      | .ok c' => confLoop parseIP n c' rest
      | r => r := by
  have h : fields (l ++ [10]) = name :: args := fields_words (hw.append (by decide))
  simp only [confLoop, readString_line hl, h]
  cases confLine parseIP c name args <;> simp

theorem confLoop_lastBlank (parseIP : Bytes → Bool) (n : Nat) (c : Conf) {l : Bytes} (hl : 10 ∉ l) (hw : Words l []) :
    confLoop parseIP n c l = .running := by
  cases n with
  | zero => rfl
  | succ n => simp only [confLoop, readString_last hl, fields_words hw, confLoop_end]

theorem confLoop_last (parseIP : Bytes → Bool) (n : Nat) (c : Conf) {l name : Bytes} {args : List Bytes} (hl : 10 ∉ l)
    (hw : Words l (name :: args)) : confLoop parseIP (n + 1) c l = confLine parseIP c name args := by
  simp only [confLoop, readString_last hl, fields_words hw]
  cases confLine parseIP c name args <;> simp

theorem effect_ok {parseIP : Bytes → Bool} {c : Conf} {ws : List Bytes} {r : ConfRes} (h : LineEffect parseIP c ws r) (hok : LineOk parseIP ws) :
    ∃ c', r = .ok c' ∧ LineEffect parseIP c ws (.ok c') := by
  cases h with
  | none h => exact ⟨c, rfl, .none h⟩
  | @set x v c' h1 h2 h3 h4 h5 => exact ⟨c', rfl, .set h1 h2 h3 h4 h5⟩
  | @bad x v h1 h2 h3 => obtain ⟨v', h4, h5⟩ := hok x h1; rw [h2] at h4; cases h4; exact absurd h5 h3
  | @missing x h1 h2 => obtain ⟨v', h4, h5⟩ := hok x h1; rw [h2] at h4; cases h4

theorem has_congr {x : Setting} {c c' : Conf} {v : Bytes} (h : x.Has c v) (hs : x.Same c c') : x.Has c' v := by
  cases x <;> simp only [Setting.Has, Setting.Same] at h hs ⊢ <;> rw [← hs] <;> exact h
theorem same_trans {x : Setting} {c c' c'' : Conf} (h : x.Same c c') (hs : x.Same c' c'') : x.Same c c'' := by
  cases x <;> simp only [Setting.Same] at h hs ⊢ <;> exact Eq.trans h hs
theorem same_refl (x : Setting) (c : Conf) : x.Same c c := by cases x <;> rfl

theorem loaded_nil (c : Conf) : Loaded c [] c := by
  refine fun x => ⟨?_, fun _ => same_refl x c⟩
  rintro v ⟨pre, ws, post, h, _⟩
  simp at h

theorem effect_same {parseIP : Bytes → Bool} {c c' : Conf} {ws : List Bytes} (h : LineEffect parseIP c ws (.ok c')) {x : Setting}
    (hx : ¬ About x ws) : x.Same c c' := by
  cases h with
  | none h => exact same_refl x c
  | @set y v _ h1 h2 h3 h4 h5 => exact h5 x fun e => hx (e ▸ h1)

theorem loaded_cons {parseIP : Bytes → Bool} {c c' c'' : Conf} {ws : List Bytes} {wss : List (List Bytes)}
    (h : LineEffect parseIP c ws (.ok c')) (hl : Loaded c' wss c'') : Loaded c (ws :: wss) c'' := by
  refine fun x => ⟨?_, fun hn => ?_⟩
  · rintro v ⟨pre, ws', post, h1, h2, h3, h4⟩
    cases pre with
    | cons a pre =>
      simp only [List.cons_append, List.cons.injEq] at h1
      exact (hl x).1 v ⟨pre, ws', post, h1.2, h2, h3, h4⟩
    | nil =>
      simp only [List.nil_append, List.cons.injEq] at h1
      obtain ⟨rfl, rfl⟩ := h1
      have hs := (hl x).2 h4
      cases h with
      | none h => exact absurd h2 (h x)
      | @set y v' _ h5 h6 h7 h8 h9 =>
        rw [h3] at h6; cases h6
        rw [about_unique h2 h5] at hs ⊢
        exact has_congr h8 hs
  · exact same_trans (effect_same h (hn ws (by simp))) ((hl x).2 fun ws' h' => hn ws' (by simp [h']))

theorem effect_blank (parseIP : Bytes → Bool) (c : Conf) : LineEffect parseIP c [] (.ok c) :=
  .none fun x ⟨n, h, _⟩ => by cases h

/-- C56 (partial): a file whose lines are correct and whose last line is not blank is loaded: every setting has the last
value given for it, the others keep their values. -/
theorem C56_load_partial (parseIP : Bytes → Bool) (c : Conf) (file : Bytes) (wss : List (List Bytes)) (hf : FileWords file wss)
    (hok : ∀ ws ∈ wss, LineOk parseIP ws) (hlast : wss.getLast? ≠ some []) :
    ∃ c', Loaded c wss c' ∧ ∀ n, wss.length ≤ n → confLoop parseIP n c file = .ok c' := by
  induction hf generalizing c with
  | @last l ws hl hw =>
    cases ws with
    | nil => exact absurd rfl hlast
    | cons name args =>
      obtain ⟨c', h1, h2⟩ := effect_ok (confLine_effect parseIP c name args) (hok _ (by simp))
      refine ⟨c', loaded_cons h2 (loaded_nil c'), fun n hn => ?_⟩
      cases n with
      | zero => simp at hn
      | succ n => rw [confLoop_last parseIP n c hl hw, h1]
  | @line l ws rest wss hl hw hf ih =>
    have hne : wss ≠ [] := by cases hf <;> simp
    have hlast' : wss.getLast? ≠ some [] := by
      intro h; apply hlast; rw [List.getLast?_cons, h]; rfl
    cases ws with
    | nil =>
      obtain ⟨c', h1, h2⟩ := ih c (fun ws h => hok ws (by simp [h])) hlast'
      refine ⟨c', loaded_cons (effect_blank parseIP c) h1, fun n hn => ?_⟩
      cases n with
      | zero => simp at hn
      | succ n => rw [confLoop_blank parseIP n c hl hw]; exact h2 n (by simpa using hn)
    | cons name args =>
      obtain ⟨c1, h1, h2⟩ := effect_ok (confLine_effect parseIP c name args) (hok _ (by simp))
      obtain ⟨c', h3, h4⟩ := ih c1 (fun ws h => hok ws (by simp [h])) hlast'
      refine ⟨c', loaded_cons h2 h3, fun n hn => ?_⟩
      cases n with
      | zero => simp at hn
      | succ n => rw [confLoop_line parseIP n c hl hw, h1]; exact h4 n (by simpa using hn)

/-- C56: a file whose lines are correct and whose last line is blank, as when it ends with a line feed, is never loaded: the
loop goes on forever. -/
theorem C56_never_ends (parseIP : Bytes → Bool) (c : Conf) (file : Bytes) (wss : List (List Bytes)) (hf : FileWords file wss)
    (hok : ∀ ws ∈ wss, LineOk parseIP ws) (hlast : wss.getLast? = some []) (n : Nat) : confLoop parseIP n c file = .running := by
  induction hf generalizing c n with
  | @last l ws hl hw =>
    simp only [List.getLast?_singleton, Option.some.injEq] at hlast
    subst hlast
    exact confLoop_lastBlank parseIP n c hl hw
  | @line l ws rest wss hl hw hf ih =>
    have hlast' : wss.getLast? = some [] := by
      rw [List.getLast?_cons] at hlast
      cases hg : wss.getLast? with
      | none => cases hf <;> simp at hg
      | some x => rw [hg] at hlast; simpa using hlast
    cases n with
    | zero => rfl
    | succ n =>
      cases ws with
      | nil => rw [confLoop_blank parseIP n c hl hw]; exact ih c (fun ws h => hok ws (by simp [h])) hlast' n
      | cons name args =>
        obtain ⟨c1, h1, h2⟩ := effect_ok (confLine_effect parseIP c name args) (hok _ (by simp))
        rw [confLoop_line parseIP n c hl hw, h1]
        exact ih c1 (fun ws h => hok ws (by simp [h])) hlast' n

/-- C56: the first line that is not correct decides: a value that is not allowed makes loading fail with an error, a missing
value crashes the server. -/
theorem C56_bad_line (parseIP : Bytes → Bool) (c : Conf) (file : Bytes) (pre post : List (List Bytes)) (ws : List Bytes) (x : Setting)
    (hf : FileWords file (pre ++ ws :: post)) (hok : ∀ ws ∈ pre, LineOk parseIP ws) (hx : About x ws)
    (hbad : ∀ v, ws[1]? = some v → ¬ x.Valid parseIP v) (n : Nat) (hn : pre.length < n) :
    confLoop parseIP n c file = if ws.length < 2 then .fault .indexOutOfRange else .error := by
  have eff {c : Conf} {r : ConfRes} (h : LineEffect parseIP c ws r) : r = if ws.length < 2 then .fault .indexOutOfRange else .error := by
    cases h with
    | none h => exact absurd hx (h x)
    | @set y v _ h1 h2 h3 h4 h5 => obtain rfl := about_unique hx h1; exact absurd h3 (hbad v h2)
    | @bad y v h1 h2 h3 =>
      have : 1 < ws.length := by
        rcases Nat.lt_or_ge 1 ws.length with h | h
        · exact h
        · rw [List.getElem?_eq_none h] at h2; cases h2
      rw [if_neg (by omega)]
    | @missing y h1 h2 =>
      have := List.getElem?_eq_none_iff.1 h2
      rw [if_pos (by omega)]
  clear hbad
  generalize hw : pre ++ ws :: post = wss at hf
  induction hf generalizing c n pre with
  | @last l ws1 hl hw1 =>
    cases n with
    | zero => omega
    | succ n =>
      cases pre with
      | cons a pre => simp at hw
      | nil =>
        simp only [List.nil_append, List.cons.injEq] at hw
        obtain ⟨rfl, _⟩ := hw
        cases ws with
        | nil => obtain ⟨_, h, _⟩ := hx; cases h
        | cons name args => rw [confLoop_last parseIP n c hl hw1]; exact eff (confLine_effect parseIP c name args)
  | @line l ws1 rest wss hl hw1 hf ih =>
    cases n with
    | zero => omega
    | succ n =>
      cases pre with
      | nil =>
        simp only [List.nil_append, List.cons.injEq] at hw
        obtain ⟨rfl, _⟩ := hw
        cases ws with
        | nil => obtain ⟨_, h, _⟩ := hx; cases h
        | cons name args =>
          have := eff (confLine_effect parseIP c name args)
          rw [confLoop_line parseIP n c hl hw1, this]
          by_cases h2 : (name :: args).length < 2
          · simp only [if_pos h2]
          · simp only [if_neg h2]
      | cons a pre =>
        simp only [List.cons_append, List.cons.injEq] at hw
        obtain ⟨rfl, rfl⟩ := hw
        have hn' : pre.length < n := by simpa using hn
        cases a with
        | nil => rw [confLoop_blank parseIP n c hl hw1]; exact ih c pre (fun ws h => hok ws (by simp [h])) n hn' rfl
        | cons name args =>
          obtain ⟨c1, h1, h2⟩ := effect_ok (confLine_effect parseIP c name args) (hok _ (by simp))
          rw [confLoop_line parseIP n c hl hw1, h1]
          exact ih c1 pre (fun ws h => hok ws (by simp [h])) n hn' rfl

/-- C56: `Init`.  A host flag that is no address is an error; without file the flags are the configuration; a file that cannot be
opened is an error; otherwise the file decides. -/
theorem C56_init (parseIP : Bytes → Bool) (flags : Conf) (n : Nat) :
    (parseIP flags.host = false → ∀ file, confInit parseIP n flags file = .error) ∧
    (parseIP flags.host = true → confInit parseIP n flags none = .ok flags ∧ confInit parseIP n flags (some none) = .error ∧
      ∀ content, confInit parseIP n flags (some (some content)) = confLoop parseIP n flags content) := by
  constructor <;> intro h <;> simp [confInit, h]

theorem confLine_host {parseIP : Bytes → Bool} {c c' : Conf} {name : Bytes} {args : List Bytes} (h : confLine parseIP c name args = .ok c')
    (hc : parseIP c.host = true) : parseIP c'.host = true := by
  unfold confLine at h
  simp only at h
  repeat' split at h
  all_goals first
    | cases h; assumption
    | cases h

theorem confLoop_host {parseIP : Bytes → Bool} {n : Nat} {c c' : Conf} {inp : Bytes} (h : confLoop parseIP n c inp = .ok c')
    (hc : parseIP c.host = true) : parseIP c'.host = true := by
  induction n generalizing c inp with
  | zero => cases h
  | succ n ih =>
    simp only [confLoop] at h
    split at h
    · exact ih h hc
    · split at h
      · next c1 hl =>
        split at h
        · cases h; exact confLine_host hl hc
        · exact ih h (confLine_host hl hc)
      · next hne => exact absurd h (hne _)

/-- C56: an accepted configuration has a host that is an address, whether it comes from the flag or from the file. -/
theorem C56_host (parseIP : Bytes → Bool) (flags conf : Conf) (file : Option (Option Bytes)) (n : Nat)
    (h : confInit parseIP n flags file = .ok conf) : parseIP conf.host = true := by
  unfold confInit at h
  split at h
  · cases h
  next hf =>
  have hf : parseIP flags.host = true := by simpa using hf
  split at h
  · cases h; exact hf
  · cases h
  · exact confLoop_host h hf

/-- C56: when reading fails after `inp`, the complete lines read until then are taken for the whole file: if they are correct there is
no error. -/
theorem C56_read_error (parseIP : Bytes → Bool) (c : Conf) (inp : Bytes) (wss : List (List Bytes)) (hf : FileWords inp wss)
    (hok : ∀ ws ∈ wss.dropLast, LineOk parseIP ws) :
    ∃ c', Loaded c wss.dropLast c' ∧ ∀ n, wss.length ≤ n → confLoopCut parseIP n c inp = .ok c' := by
  induction hf generalizing c with
  | @last l ws hl hw =>
    refine ⟨c, loaded_nil c, fun n hn => ?_⟩
    cases n with
    | zero => simp at hn
    | succ n => simp only [confLoopCut, readString_last hl, if_true]
  | @line l ws rest wss hl hw hf ih =>
    have hne : wss ≠ [] := by cases hf <;> simp
    rw [List.dropLast_cons_of_ne_nil hne] at hok ⊢
    cases ws with
    | nil =>
      obtain ⟨c', h1, h2⟩ := ih c (fun ws h => hok ws (by simp [h]))
      refine ⟨c', loaded_cons (effect_blank parseIP c) h1, fun n hn => ?_⟩
      cases n with
      | zero => simp at hn
      | succ n =>
        have h : fields (l ++ [10]) = [] := fields_words (hw.append (by decide))
        simp only [confLoopCut, readString_line hl, h]
        exact h2 n (by simpa using hn)
    | cons name args =>
      obtain ⟨c1, h1, h2⟩ := effect_ok (confLine_effect parseIP c name args) (hok _ (by simp))
      obtain ⟨c', h3, h4⟩ := ih c1 (fun ws h => hok ws (by simp [h]))
      refine ⟨c', loaded_cons h2 h3, fun n hn => ?_⟩
      cases n with
      | zero => simp at hn
      | succ n =>
        have h : fields (l ++ [10]) = name :: args := fields_words (hw.append (by decide))
        simp only [confLoopCut, readString_line hl, h, h1]
        exact h4 n (by simpa using hn)

/-- Example: the second line is lost, and the server starts on the port of the first. -/
example : confLoopCut (fun _ => true) 2 .default b!"port 7000\nhost 10.0." = .ok { Conf.default with port := 7000 } := by decide +kernel
example : confInit (fun h => h == b!"10.0.0.1") 5 .default none = .error := by decide +kernel

/-- C56, the full statement: loading ends for every file, with the last values given if all lines are correct and with an error
otherwise. -/
def C56_Statement : Prop :=
  ∀ (parseIP : Bytes → Bool) (c : Conf) (file : Bytes) (wss : List (List Bytes)), FileWords file wss →
    ∃ n, ((∀ ws ∈ wss, LineOk parseIP ws) ∧ ∃ c', confLoop parseIP n c file = .ok c' ∧ Loaded c wss c') ∨
      ((∃ ws ∈ wss, ¬ LineOk parseIP ws) ∧ confLoop parseIP n c file = .error)

/-- One line, ended by a line feed. -/
theorem portFile : FileWords b!"port 7\n" [[b!"port", b!"7"], []] := by
  have nb : Blank [] := ⟨[], by simp, rfl⟩
  refine .line (l := b!"port 7") (rest := []) (by decide) ?_ (.last (by decide) (.blank nb))
  have h : fields b!"port 7" = [b!"port", b!"7"] := by decide +kernel
  exact h ▸ words_total _

/-- C56 is false of the code: a file that ends with a line feed is never loaded. -/
theorem C56_refuted : ¬ C56_Statement := by
  intro h
  obtain ⟨n, h | h⟩ := h (fun _ => true) .default b!"port 7\n" _ portFile
  · obtain ⟨h1, c', h2, _⟩ := h
    rw [C56_never_ends _ _ _ _ portFile h1 rfl n] at h2
    cases h2
  · obtain ⟨⟨ws, h1, h2⟩, _⟩ := h
    apply h2
    rintro x ⟨m, h3, h4⟩
    simp only [List.mem_cons, List.not_mem_nil, or_false] at h1
    rcases h1 with rfl | rfl
    · refine ⟨b!"7", rfl, ?_⟩
      cases h3
      have : x = .port := name_inj (y := .port) ((toLower_folds (name_ascii x)).2 h4).symm
      subst this
      exact ⟨7, (atoi_iff _ _).1 (by decide)⟩
    · cases h3

/-- The example file of the repository, shortened: three settings and blank lines between them. -/
example : confLoop (fun _ => true) 5 .default b!"host 10.0.0.1\n\nPORT 6399 x\n\nloglevel DEBUG" =
    .ok { Conf.default with host := b!"10.0.0.1", port := 6399, logLevel := b!"debug" } := by decide +kernel
example : confLoop (fun _ => true) 100 .default b!"host 10.0.0.1\n" = .running := by decide +kernel
example : confLoop (fun _ => true) 1 .default b!"port" = .fault .indexOutOfRange := by decide +kernel
example : confLoop (fun _ => true) 1 .default b!"port x" = .error := by decide +kernel
/-- A no-break space separates words. -/
example : fields (b!" port" ++ [0xC2, 0xA0] ++ b!"7\r") = [b!"port", b!"7"] := by decide +kernel

/-! ### C59 -/

namespace Spec
/-- The levels, least severe first. -/
def levels : List Bytes := [b!"debug", b!"info", b!"warning", b!"panic", b!"error"]

/-- The least severe level that is written. -/
def Threshold (configured : Bytes) (i : Nat) : Prop := levels[i]? = some configured ∨ configured ∉ levels ∧ levels[i]? = some b!"info"
end Spec

/-- C59: a message of a level is written exactly if the level is at least as severe as the configured one, info if that is
none of the five levels. -/
theorem C59_filter (configured : Bytes) (i sev : Nat) (h : Threshold configured i) :
    logWrites (logInit configured) sev = true ↔ i ≤ sev := by
  have key : logInit configured = i := by
    rcases h with h | ⟨h1, h2⟩
    · have hi : i < 5 := by
        rcases Nat.lt_or_ge i 5 with h' | h'
        · exact h'
        · rw [List.getElem?_eq_none (by simpa [levels] using h')] at h; cases h
      have hcases : i = 0 ∨ i = 1 ∨ i = 2 ∨ i = 3 ∨ i = 4 := by omega
      rcases hcases with rfl | rfl | rfl | rfl | rfl <;> (cases h; decide)
    · have hi : i = 1 := by
        have hall : ∀ j < 5, levels[j]? = some b!"info" → j = 1 := by decide
        rcases Nat.lt_or_ge i 5 with h' | h'
        · exact hall i h' h2
        · rw [List.getElem?_eq_none (by simpa [levels] using h')] at h2; cases h2
      subst hi
      have : logLevelTable.findIdx? (fun n => n == configured) = none := by
        rw [List.findIdx?_eq_none_iff]
        intro x hx
        have : x ≠ configured := fun e => h1 (e ▸ hx)
        simpa using this
      simp [logInit, this]
  subst key
  simp [logWrites]

/-- C59: there is always exactly one such level. -/
theorem C59_threshold (configured : Bytes) : ∃ i, Threshold configured i ∧ ∀ j, Threshold configured j → j = i := by
  have hlt {i : Nat} {w : Bytes} (hi : levels[i]? = some w) : i < 5 := by
    rcases Nat.lt_or_ge i 5 with h | h
    · exact h
    · rw [List.getElem?_eq_none (by simpa [levels] using h)] at hi; cases hi
  have hall : ∀ i < 5, ∀ j < 5, levels[j]? = levels[i]? → j = i := by decide
  have hu {i : Nat} {w : Bytes} (hi : levels[i]? = some w) (j : Nat) (hj : levels[j]? = some w) : j = i :=
    hall i (hlt hi) j (hlt hj) (hj.trans hi.symm)
  by_cases h : configured ∈ levels
  · obtain ⟨i, hi⟩ := List.getElem?_of_mem h
    refine ⟨i, .inl hi, fun j hj => ?_⟩
    rcases hj with hj | hj
    · exact hu hi j hj
    · exact absurd h hj.1
  · refine ⟨1, .inr ⟨h, rfl⟩, fun j hj => ?_⟩
    rcases hj with hj | hj
    · exact absurd (List.mem_of_getElem? hj) h
    · exact hu rfl j hj.2

/-- Warnings are written at level info and not at level error. -/
example : logWrites (logInit b!"info") 2 = true ∧ logWrites (logInit b!"error") 2 = false ∧ logWrites (logInit b!"nonsense") 0 = false := by decide

/-! ### Starting the server -/

/-- C61, the full statement: a configuration that has been accepted gives a server that can execute commands: it has databases
and the lock of every key can be determined. -/
def C61_Statement : Prop :=
  ∀ (parseIP : Bytes → Bool) (flags conf : Conf) (file : Option (Option Bytes)) (n : Nat), confInit parseIP n flags file = .ok conf →
    ∃ s len, start conf = .ok (s, len) ∧ ∀ key, ∃ p, lockPosOf len key = .ok p ∧ p < len

/-- C61: exactly when there is at least one database and the number of segments is positive. -/
theorem C61_start_partial (conf : Conf) :
    (∃ s len, start conf = .ok (s, len) ∧ ∀ key, ∃ p, lockPosOf len key = .ok p ∧ p < len) ↔ 0 < conf.dbNum ∧ 0 < conf.segNum := by
  constructor
  · rintro ⟨s, len, h1, h2⟩
    unfold start at h1
    split at h1
    · cases h1
    · next h =>
      obtain ⟨h3, h4, -⟩ := newManager_ok h
      simp only [Except.ok.injEq, Prod.mk.injEq] at h1
      obtain ⟨p, _, hp⟩ := h2 []
      exact ⟨h3, by omega⟩
  · rintro ⟨h1, h2⟩
    refine ⟨_, _, by simp only [start, newManager]; rw [if_neg (by omega), if_neg (by omega), if_neg (by omega)], fun key => ?_⟩
    refine ⟨_, by unfold lockPosOf; rw [if_neg (by omega)], Nat.mod_lt _ (by omega)⟩

/-- C61 is false of the code: without databases the server crashes at the start. -/
theorem C61_refuted : ¬ C61_Statement := by
  intro h
  have := (C61_start_partial { Conf.default with dbNum := 0 }).1
    (h (fun _ => true) .default _ (some (some b!"dbnum 0")) 1 (by decide +kernel))
  simp at this

/-- C61: with no segments the server starts and crashes as soon as it locks a key. -/
theorem C61_no_segments (conf : Conf) (h1 : 0 < conf.dbNum) (h2 : conf.segNum = 0) :
    ∃ s, start conf = .ok (s, 0) ∧ ∀ key, lockPosOf 0 key = .error .divideByZero := by
  refine ⟨_, by simp only [start, newManager]; rw [if_neg (by omega), if_neg (by omega), if_neg (by omega), h2]; rfl, fun _ => rfl⟩

/-- C61: negative numbers crash the server at the start. -/
theorem C61_negative (conf : Conf) (h : conf.dbNum < 0 ∨ 0 < conf.dbNum ∧ conf.segNum < 0) : start conf = .error .makeSlice := by
  simp only [start, newManager]
  rcases h with h | ⟨h1, h2⟩
  · rw [if_pos h]
  · rw [if_neg (by omega), if_neg (by omega), if_pos h2]

/-- The lock positions used everywhere else are these. -/
theorem lockPosOf_eq (c : Cfg) (key : Bytes) : lockPosOf c.nLocks key = .ok (c.lockPos key) := by
  have := c.nLocks_pos
  unfold lockPosOf
  rw [if_neg (by omega)]
  rfl

/-- The defaults start. -/
example : ∃ s len, start Conf.default = .ok (s, len) ∧ ∀ key, ∃ p, lockPosOf len key = .ok p ∧ p < len :=
  (C61_start_partial _).2 (by decide)

end GRedis
