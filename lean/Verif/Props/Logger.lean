import Verif.Model.Logger
import Verif.Props.Config
/-
C75: the log.
-/
namespace GRedis

namespace Spec

/-- A line of the log. -/
structure LogLine where
  /-- the goroutine that writes it -/
  who : Nat
  call : LogCall
  date : Bytes

/-- `[level][file:line]date text`. -/
def LogLine.bytes (l : LogLine) : Bytes :=
  b!"[" ++ (levels[l.call.sev]?).getD [] ++ b!"]" ++ (match l.call.loc with | some p => b!"[" ++ p ++ b!"]" | none => []) ++ l.date ++ l.call.text

/-- The bytes of some lines. -/
def logBytes (ls : List LogLine) : Bytes := (ls.map LogLine.bytes).flatten

/-- The calls of goroutine `i` that are as severe as the configured level `t` or more. -/
def logDue (t i : Nat) (cs : List (Nat × LogCall)) : List LogCall := (cs.filter fun x => x.1 == i && decide (t ≤ x.2.sev)).map (·.2)

end Spec
open Spec

theorem logPrefix_eq (l : LogLine) : logPrefix l.call ++ l.date ++ l.call.text = l.bytes := by
  obtain ⟨i, ⟨sev, loc, text⟩, date⟩ := l
  simp only [logPrefix, LogLine.bytes, show logLevelTable = levels from rfl, List.getD_eq_getElem?_getD]
  cases loc <;> simp

/-- The call a goroutine has begun and not yet written. -/
def LogAt.due : LogAt → List LogCall
  | .entering x | .locked x | .ready x => [x]
  | .outside | .leaving => []

/-- It is inside the critical section. -/
def LogAt.inside : LogAt → Bool
  | .locked _ | .ready _ | .leaving => true
  | .outside | .entering _ => false

structure LogInv (old : Bytes) (t : Nat) (cs : List (Nat × LogCall)) (s : Log) (ls : List LogLine) : Prop where
  level : s.level = t
  due : ∀ i, logDue t i cs = ((ls.filter (·.who == i)).map (·.call)) ++ (s.at_ i).due
  mutex : ∀ i, (s.at_ i).inside = true ↔ s.mutex = some i
  pre : ∀ i x, s.at_ i = .ready x → s.pre = logPrefix x
  stdout : s.stdout = logBytes ls
  pos : s.file.pos = (logBytes ls).length
  data : s.file.data = logBytes ls ++ old.drop (logBytes ls).length

theorem write_over {old w b : Bytes} {f : LogFile} (hp : f.pos = w.length) (hd : f.data = w ++ old.drop w.length) :
    (f.write b).data = (w ++ b) ++ old.drop (w ++ b).length := by
  simp only [LogFile.write, hp, hd]
  rw [List.take_left' rfl, List.length_append, List.drop_append]
  simp [List.drop_drop]

theorem logDue_nil (t i : Nat) : logDue t i [] = [] := rfl

theorem logDue_snoc (t i j : Nat) (cs : List (Nat × LogCall)) (x : LogCall) :
    logDue t i (cs ++ [(j, x)]) = logDue t i cs ++ if j = i ∧ t ≤ x.sev then [x] else [] := by
  simp only [logDue, List.filter_append, List.map_append]
  by_cases h : j = i ∧ t ≤ x.sev <;> simp [h, List.filter_cons]

theorem log_inv {old : Bytes} {s0 s : Log} {cs : List (Nat × LogCall)} (h0 : s0.file = ⟨old, 0⟩) (h1 : s0.mutex = none)
    (h2 : s0.at_ = fun _ => .outside) (h3 : s0.stdout = []) (h : LogRun s0 cs s) : ∃ ls, LogInv old s0.level cs s ls := by
  induction h with
  | refl => exact ⟨[], rfl, fun i => by rw [h2]; rfl, fun i => by rw [h2, h1]; simp [LogAt.inside], fun i x => by rw [h2]; exact nofun,
      h3, by rw [h0]; rfl, by rw [h0]; simp [logBytes]⟩
  | @step cs s1 s2 i x _ hs ih =>
    obtain ⟨ls, hi⟩ := ih
    have other : ∀ {s : Log} {a : LogAt} (j : Nat), j ≠ i → (s.go i a).at_ j = s.at_ j := fun j hj => by simp [Log.go, hj]
    have same : ∀ {s : Log} {a : LogAt}, (s.go i a).at_ i = a := by simp [Log.go]
    cases hs with
    | @skip _ x ha hw =>
      refine ⟨ls, hi.level, fun j => ?_, hi.mutex, hi.pre, hi.stdout, hi.pos, hi.data⟩
      simp only [logWrites, hi.level, Bool.not_eq_false', decide_eq_true_eq] at hw
      simp only [Option.map_some, Option.toList_some, logDue_snoc, hi.due j]
      rw [if_neg (by omega)]; simp
    | @enter _ x ha hw =>
      refine ⟨ls, hi.level, fun j => ?_, fun j => ?_, fun j y hj => ?_, hi.stdout, hi.pos, hi.data⟩
      · simp only [logWrites, hi.level, Bool.not_eq_true', decide_eq_false_iff_not, Nat.not_lt] at hw
        simp only [Option.map_some, Option.toList_some, logDue_snoc, hi.due j]
        by_cases hj : j = i
        · subst hj; rw [same, ha]; simp [LogAt.due, hw]
        · rw [other j hj, if_neg (fun h => hj h.1.symm), List.append_nil]
      · by_cases hj : j = i
        · subst hj; have := hi.mutex j; rw [ha] at this; rw [same]; exact this
        · rw [other j hj]; exact hi.mutex j
      · by_cases hj' : j = i
        · subst hj'; rw [same] at hj; cases hj
        · rw [other j hj'] at hj; exact hi.pre j y hj
    | @lock _ x ha hm =>
      refine ⟨ls, hi.level, fun j => ?_, fun j => ?_, fun j y hj => ?_, hi.stdout, hi.pos, hi.data⟩
      · simp only [Option.map_none, Option.toList_none, List.append_nil, hi.due j]
        by_cases hj : j = i
        · subst hj; rw [same, ha]; rfl
        · rw [other j hj]
      · by_cases hj : j = i
        · subst hj; rw [same]; simp [LogAt.inside, Log.go]
        · rw [other j hj]
          have := hi.mutex j
          rw [hm] at this
          simp only [reduceCtorEq, iff_false, Bool.not_eq_true] at this
          simp only [this, Log.go, Option.some.injEq, Bool.false_eq_true, false_iff]
          exact fun h => hj h.symm
      · by_cases hj' : j = i
        · subst hj'; rw [same] at hj; cases hj
        · rw [other j hj'] at hj; exact hi.pre j y hj
    | @setPrefix _ x ha =>
      have hm := (hi.mutex i).1 (by rw [ha]; rfl)
      refine ⟨ls, hi.level, fun j => ?_, fun j => ?_, fun j y hj => ?_, hi.stdout, hi.pos, hi.data⟩
      · simp only [Option.map_none, Option.toList_none, List.append_nil, hi.due j]
        by_cases hj : j = i
        · subst hj; rw [same, ha]; rfl
        · rw [other j hj]
      · by_cases hj : j = i
        · subst hj; rw [same]; simp [LogAt.inside, Log.go, hm]
        · rw [other j hj]; exact hi.mutex j
      · by_cases hj' : j = i
        · subst hj'; rw [same] at hj; cases hj; rfl
        · rw [other j hj'] at hj
          have := (hi.mutex j).1 (by rw [hj]; rfl)
          rw [hm] at this; cases this; exact absurd rfl hj'
    | @print _ x date ha =>
      have hm := (hi.mutex i).1 (by rw [ha]; rfl)
      have hb : s1.pre ++ date ++ x.text = (LogLine.mk i x date).bytes := by
        rw [hi.pre i x ha]; exact logPrefix_eq ⟨i, x, date⟩
      have hl : logBytes (ls ++ [LogLine.mk i x date]) = logBytes ls ++ (s1.pre ++ date ++ x.text) := by
        rw [hb]; simp [logBytes]
      refine ⟨ls ++ [⟨i, x, date⟩], hi.level, fun j => ?_, fun j => ?_, fun j y hj => ?_, ?_, ?_, ?_⟩
      · simp only [Option.map_none, Option.toList_none, List.append_nil, hi.due j, List.filter_append, List.map_append]
        by_cases hj : j = i
        · subst hj; rw [same, ha]; simp [LogAt.due]
        · rw [other j hj]
          have : (i == j) = false := by simpa using fun h : i = j => hj h.symm
          simp [this]
      · by_cases hj : j = i
        · subst hj; rw [same]; simp [LogAt.inside, Log.go, hm]
        · rw [other j hj]; exact hi.mutex j
      · by_cases hj' : j = i
        · subst hj'; rw [same] at hj; cases hj
        · rw [other j hj'] at hj; exact hi.pre j y hj
      · rw [hl, ← hi.stdout]; rfl
      · rw [hl, List.length_append, ← hi.pos]; rfl
      · rw [hl]; exact write_over hi.pos hi.data
    | unlock ha =>
      have hm := (hi.mutex i).1 (by rw [ha]; rfl)
      refine ⟨ls, hi.level, fun j => ?_, fun j => ?_, fun j y hj => ?_, hi.stdout, hi.pos, hi.data⟩
      · simp only [Option.map_none, Option.toList_none, List.append_nil, hi.due j]
        by_cases hj : j = i
        · subst hj; rw [same, ha]; rfl
        · rw [other j hj]
      · by_cases hj : j = i
        · subst hj; rw [same]; simp [LogAt.inside, Log.go]
        · rw [other j hj]
          have := hi.mutex j
          rw [hm] at this
          simp only [Option.some.injEq] at this
          simp only [Log.go, reduceCtorEq, iff_false]
          exact fun h => hj (this.1 h).symm
      · by_cases hj' : j = i
        · subst hj'; rw [same] at hj; cases hj
        · rw [other j hj'] at hj; exact hi.pre j y hj

/-- C75: `Init` fails exactly if the directory is neither there nor can be made, or the file cannot be opened. -/
theorem C75_init (level : Bytes) (d : LogDisk) :
    (∃ s, Log.init level d = some s) ↔ (d.statOk = true ∨ d.mkdirOk = true) ∧ d.openOk = true := by
  obtain ⟨a, b, c, old⟩ := d
  cases a <;> cases b <;> cases c <;> simp [Log.init]

theorem init_inv {level : Bytes} {d : LogDisk} {s0 s : Log} {cs : List (Nat × LogCall)} (h0 : Log.init level d = some s0)
    (h : LogRun s0 cs s) : ∃ ls, LogInv (d.old.getD []) (logInit level) cs s ls := by
  unfold Log.init at h0
  split at h0
  · cases h0
  · split at h0
    · cases h0
    · cases h0; exact log_inv rfl rfl rfl rfl h

/-- C75: however the goroutines are scheduled, what is written is whole lines.  Every line has the level, place and text of one
call, the lines of a goroutine are its calls of sufficient level in order, none missing but that of a call still in progress, and
none twice. -/
theorem C75_lines (level : Bytes) (d : LogDisk) (s0 s : Log) (cs : List (Nat × LogCall)) (t : Nat) (ht : Threshold level t)
    (h0 : Log.init level d = some s0) (h : LogRun s0 cs s) :
    ∃ ls, s.stdout = logBytes ls ∧ ∀ i, ((ls.filter (·.who == i)).map (·.call)) <+: logDue t i cs ∧
      (s.at_ i = .outside → (ls.filter (·.who == i)).map (·.call) = logDue t i cs) ∧
      (logDue t i cs).length ≤ (ls.filter (·.who == i)).length + 1 := by
  obtain ⟨ls, hi⟩ := init_inv h0 h
  have hlev : logInit level = t := by
    have h1 := C59_filter level t t ht
    have h2 : ∀ sev, logWrites (logInit level) sev = true ↔ t ≤ sev := fun sev => C59_filter level t sev ht
    have h3 := (h2 (logInit level)).1 (by simp [logWrites])
    have h4 := (h2 t).2 (Nat.le_refl t)
    simp [logWrites] at h4
    omega
  rw [hlev] at hi
  refine ⟨ls, hi.stdout, fun i => ?_⟩
  rw [hi.due i]
  refine ⟨List.prefix_append _ _, fun ho => by rw [ho]; simp [LogAt.due], ?_⟩
  cases s.at_ i <;> simp [LogAt.due]

/-- C75: the file has what the standard output has got, over the beginning of what was in it before. -/
theorem C75_file (level : Bytes) (d : LogDisk) (s0 s : Log) (cs : List (Nat × LogCall)) (h0 : Log.init level d = some s0) (h : LogRun s0 cs s) :
    s.file.data = s.stdout ++ (d.old.getD []).drop s.stdout.length := by
  obtain ⟨ls, hi⟩ := init_inv h0 h
  rw [hi.stdout]; exact hi.data

/-- C75: nobody waits for the mutex for ever: as long as a call is in progress, some goroutine can go on with its call. -/
theorem C75_progress (level : Bytes) (d : LogDisk) (s0 s : Log) (cs : List (Nat × LogCall)) (h0 : Log.init level d = some s0) (h : LogRun s0 cs s)
    (i : Nat) (hi : s.at_ i ≠ .outside) : ∃ j s', LogStep j none s s' := by
  obtain ⟨ls, inv⟩ := init_inv h0 h
  have inside : ∀ j, (s.at_ j).inside = true → ∃ s', LogStep j none s s' := by
    intro j hj
    cases ha : s.at_ j with
    | outside => rw [ha] at hj; cases hj
    | entering x => rw [ha] at hj; cases hj
    | locked x => exact ⟨_, .setPrefix ha⟩
    | ready x => exact ⟨_, .print [] ha⟩
    | leaving => exact ⟨_, .unlock ha⟩
  cases hm : s.mutex with
  | some j => exact ⟨j, inside j ((inv.mutex j).2 hm)⟩
  | none =>
    cases ha : s.at_ i with
    | outside => exact absurd ha hi
    | entering x => exact ⟨i, _, .lock ha hm⟩
    | locked x => exact ⟨i, _, .setPrefix ha⟩
    | ready x => exact ⟨i, _, .print [] ha⟩
    | leaving => exact ⟨i, _, .unlock ha⟩

/-- C75, in full: the log file keeps what earlier runs have written, and what this run writes comes after it. -/
def C75_Statement : Prop :=
  ∀ (level : Bytes) (d : LogDisk) (s0 s : Log) (cs : List (Nat × LogCall)), Log.init level d = some s0 → LogRun s0 cs s →
    s.file.data = d.old.getD [] ++ s.stdout

/-- C75 (partial): so it is when the file is new or empty. -/
theorem C75_new_partial (level : Bytes) (d : LogDisk) (s0 s : Log) (cs : List (Nat × LogCall)) (hd : d.old.getD [] = [])
    (h0 : Log.init level d = some s0) (h : LogRun s0 cs s) : s.file.data = d.old.getD [] ++ s.stdout := by
  rw [C75_file level d s0 s cs h0 h, hd]; simp

namespace Witness

/-- The file has the line of an earlier run. -/
def disk : LogDisk := ⟨true, false, true, some b!"[info]old line\n"⟩
def log0 : Log := { level := 1, file := ⟨b!"[info]old line\n", 0⟩ }
def errA : LogCall := ⟨4, some b!"a.go:1", b!" [a]\n"⟩
def infoB : LogCall := ⟨1, none, b!" [b]\n"⟩
def log1 : Log := log0.go 0 (.entering errA)
def log2 : Log := log1.go 1 (.entering infoB)
def log3 : Log := { log2 with mutex := some 1 }.go 1 (.locked infoB)
def log4 : Log := { log3 with pre := logPrefix infoB }.go 1 (.ready infoB)
def log5 : Log := { log4 with file := log4.file.write (log4.pre ++ b!"D" ++ infoB.text), stdout := log4.stdout ++ (log4.pre ++ b!"D" ++ infoB.text) }.go 1 .leaving
def log6 : Log := { log5 with mutex := none }.go 1 .outside

/-- Two goroutines log at the same time, and a third makes a call that is not severe enough. -/
theorem log_run : LogRun log0 [(0, errA), (2, ⟨0, none, []⟩), (1, infoB)] log6 := by
  have r1 : LogRun log0 [(0, errA)] log1 := .step (x := some errA) .refl (.enter rfl rfl)
  have r2 : LogRun log0 [(0, errA), (2, ⟨0, none, []⟩)] log1 := .step (x := some ⟨0, none, []⟩) r1 (.skip (i := 2) rfl rfl)
  have r3 : LogRun log0 [(0, errA), (2, ⟨0, none, []⟩), (1, infoB)] log2 := .step (x := some infoB) r2 (.enter rfl rfl)
  have r4 : LogRun log0 [(0, errA), (2, ⟨0, none, []⟩), (1, infoB)] log3 := .step (x := none) r3 (.lock (i := 1) rfl rfl)
  have r5 : LogRun log0 [(0, errA), (2, ⟨0, none, []⟩), (1, infoB)] log4 := .step (x := none) r4 (.setPrefix (i := 1) rfl)
  have r6 : LogRun log0 [(0, errA), (2, ⟨0, none, []⟩), (1, infoB)] log5 := .step (x := none) r5 (.print (i := 1) b!"D" rfl)
  exact .step (x := none) r6 (.unlock (i := 1) rfl)

end Witness

/-- C75 is false of the code: the file is opened without O_APPEND, and a new run writes over the lines of the run before. -/
theorem C75_refuted : ¬ C75_Statement := by
  intro h
  have := h b!"info" Witness.disk Witness.log0 Witness.log6 _ rfl Witness.log_run
  exact absurd this (by decide)

-- the line of goroutine 1 is written, over the beginning of the old line; goroutine 0 waits, and goroutine 2 has nothing to write
example : Witness.log6.stdout = b!"[info]D [b]\n" ∧ Witness.log6.file.data = b!"[info]D [b]\nne\n" ∧
    Witness.log6.at_ 0 = .entering Witness.errA ∧ logDue 1 0 [(0, Witness.errA), (2, ⟨0, none, []⟩), (1, Witness.infoB)] = [Witness.errA] ∧
    logDue 1 2 [(0, Witness.errA), (2, ⟨0, none, []⟩), (1, Witness.infoB)] = [] := by decide
example : Threshold b!"info" 1 := .inl rfl

end GRedis
