import Verif.Model.Listen
import Verif.Props.Logger
import Verif.Props.Num
/-
C76: the server listens where it has been told to.
-/
namespace GRedis

namespace Spec

/-- A decimal number of at most 255 without leading zeros. -/
def Octet (b : Bytes) : Prop := ∃ v, Digits b v ∧ v ≤ 255 ∧ (b = [48] ∨ b.head? ≠ some 48)

/-- Four such numbers with dots between them. -/
def IPv4 (h : Bytes) : Prop := ∃ a b c d, Octet a ∧ Octet b ∧ Octet c ∧ Octet d ∧ h = a ++ b!"." ++ b ++ b!"." ++ c ++ b!"." ++ d

end Spec
open Spec

theorem takeWhile_split {p : UInt8 → Bool} (s : Bytes) :
    ∃ rest, s = s.takeWhile p ++ rest ∧ (∀ c ∈ s.takeWhile p, p c = true) ∧ ∀ c r, rest = c :: r → p c = false := by
  induction s with
  | nil => exact ⟨[], rfl, nofun, nofun⟩
  | cons c s ih =>
    obtain ⟨rest, h1, h2, h3⟩ := ih
    cases hc : p c with
    | false => exact ⟨c :: s, by simp [hc], by simp [hc], fun d r h => by cases h; exact hc⟩
    | true =>
      refine ⟨rest, by simp only [List.takeWhile_cons, hc, if_true, List.cons_append, ← h1], fun d hd => ?_, h3⟩
      simp only [List.takeWhile_cons, hc, if_true, List.mem_cons] at hd
      rcases hd with rfl | hd
      · exact hc
      · exact h2 d hd

theorem takeWhile_unique {p : UInt8 → Bool} {a rest : Bytes} (h1 : ∀ c ∈ a, p c = true) (h2 : ∀ c r, rest = c :: r → p c = false) :
    (a ++ rest).takeWhile p = a := by
  induction a with
  | nil =>
    cases rest with
    | nil => rfl
    | cons c r => simp [h2 c r rfl]
  | cons c a ih => simp [h1 c (by simp), ih fun d hd => h1 d (List.mem_cons_of_mem _ hd)]

/-- What follows does not begin with a digit. -/
def NoDigit (rest : Bytes) : Prop := ∀ c r, rest = c :: r → isDigit c = false

theorem octet_iff (s rest : Bytes) : octet s = some rest ↔ ∃ o, Octet o ∧ s = o ++ rest ∧ NoDigit rest := by
  constructor
  · intro h
    obtain ⟨r, h1, h2, h3⟩ := takeWhile_split (p := isDigit) s
    unfold octet at h
    generalize s.takeWhile isDigit = o at *
    simp only at h
    split at h
    · cases h
    · next hn =>
      simp only [not_or, not_and, Nat.not_lt] at hn
      subst h1
      rw [List.drop_left' rfl] at h
      cases h
      refine ⟨o, ⟨_, ⟨hn.1, fun c hc => (isDigit_iff c).1 (h2 c hc), rfl⟩, hn.2.1, ?_⟩, rfl, h3⟩
      match o, hn.1, hn.2.2 with
      | [c], _, _ =>
        by_cases hc : c = 48
        · subst hc; exact .inl rfl
        · exact .inr (by simpa using hc)
      | _ :: _ :: _, _, hl => exact .inr (hl (by simp))
  · rintro ⟨o, ⟨v, ⟨h1, h2, rfl⟩, h4, h5⟩, rfl, h6⟩
    have ht := takeWhile_unique (p := isDigit) (fun c hc => (isDigit_iff c).2 (h2 c hc)) h6
    unfold octet
    simp only [ht]
    rw [if_neg, List.drop_left' rfl]
    simp only [not_or, not_and, Nat.not_lt]
    refine ⟨h1, h4, fun hl => ?_⟩
    rcases h5 with rfl | h5
    · simp at hl
    · exact h5

theorem afterDot_iff (s rest : Bytes) : afterDot s = some rest ↔ s = 46 :: rest := by
  unfold afterDot
  split <;> simp_all

theorem octet_end {o : Bytes} (h : Octet o) : octet o = some [] := (octet_iff o []).2 ⟨o, h, by simp, nofun⟩

theorem octet_dot {o r : Bytes} (h : Octet o) : octet (o ++ 46 :: r) = some (46 :: r) :=
  (octet_iff _ _).2 ⟨o, h, rfl, fun c _ he => by cases he; decide⟩

theorem parseIPv4_iff (h : Bytes) : parseIPv4 h = true ↔ IPv4 h := by
  unfold parseIPv4
  simp only [beq_iff_eq, Option.bind_eq_bind, Option.bind_eq_some_iff]
  constructor
  · rintro ⟨r6, ⟨r5, ⟨r4, ⟨r3, ⟨r2, ⟨r1, h1, h2⟩, h3⟩, h4⟩, h5⟩, h6⟩, h7⟩
    rw [afterDot_iff] at h2 h4 h6
    subst h2 h4 h6
    obtain ⟨a, ha, rfl, -⟩ := (octet_iff _ _).1 h1
    obtain ⟨b, hb, rfl, -⟩ := (octet_iff _ _).1 h3
    obtain ⟨c, hc, rfl, -⟩ := (octet_iff _ _).1 h5
    obtain ⟨d, hd, rfl, -⟩ := (octet_iff _ _).1 h7
    exact ⟨a, b, c, d, ha, hb, hc, hd, by simp⟩
  · rintro ⟨a, b, c, d, ha, hb, hc, hd, rfl⟩
    refine ⟨d, ⟨46 :: d, ⟨c ++ 46 :: d, ⟨46 :: (c ++ 46 :: d), ⟨b ++ 46 :: (c ++ 46 :: d), ⟨46 :: (b ++ 46 :: (c ++ 46 :: d)), ?_, rfl⟩, ?_⟩, rfl⟩, ?_⟩, rfl⟩, octet_end hd⟩
    · rw [← octet_dot ha]; simp
    · exact octet_dot hb
    · exact octet_dot hc

theorem octet_digits {o : Bytes} (h : Octet o) : ∀ c ∈ o, 48 ≤ c.toNat ∧ c.toNat ≤ 57 := by
  obtain ⟨v, ⟨-, h2, -⟩, -⟩ := h
  exact h2

theorem ipv4_chars {h : Bytes} (hi : IPv4 h) : ∀ c ∈ h, c = 46 ∨ (48 ≤ c.toNat ∧ c.toNat ≤ 57) := by
  obtain ⟨a, b, c, d, ha, hb, hc, hd, rfl⟩ := hi
  intro x hx
  simp only [List.mem_append, List.mem_singleton] at hx
  rcases hx with ((((((hx | hx) | hx) | hx) | hx) | hx) | hx)
  · exact .inr (octet_digits ha x hx)
  · exact .inl hx
  · exact .inr (octet_digits hb x hx)
  · exact .inl hx
  · exact .inr (octet_digits hc x hx)
  · exact .inl hx
  · exact .inr (octet_digits hd x hx)

/-- C76: the addresses without colon that are accepted are the IPv4 addresses. -/
theorem C76_ipv4 (h : Bytes) : netParseIP h = true ∧ 58 ∉ h ↔ IPv4 h := by
  constructor
  · rintro ⟨h1, h2⟩
    unfold netParseIP at h1
    split at h1
    · exact (parseIPv4_iff h).1 h1
    · next x hx hf =>
      have hm := List.mem_of_find?_eq_some hf
      have hp := List.find?_some hf
      simp only [Bool.or_eq_true, beq_iff_eq] at hp
      rcases hp with rfl | rfl
      · exact absurd rfl hx
      · exact absurd hm h2
    · cases h1
  · intro hi
    have hc : (58 : UInt8) ∉ h := fun hm => by rcases ipv4_chars hi 58 hm with h | h <;> revert h <;> decide
    refine ⟨?_, hc⟩
    unfold netParseIP
    split
    · exact (parseIPv4_iff h).2 hi
    · next x hx hf =>
      have hm := List.mem_of_find?_eq_some hf
      have hp := List.find?_some hf
      simp only [Bool.or_eq_true, beq_iff_eq] at hp
      rcases hp with rfl | rfl
      · exact absurd rfl hx
      · exact absurd hm hc
    · next hf =>
      obtain ⟨a, b, c, d, -, -, -, -, rfl⟩ := hi
      have := List.find?_eq_none.1 hf 46 (by simp)
      simp at this

theorem splitLastColon_iff (s h p : Bytes) : splitLastColon s = some (h, p) ↔ s = h ++ 58 :: p ∧ 58 ∉ p := by
  induction s generalizing h p with
  | nil => simp [splitLastColon]
  | cons c s ih =>
    unfold splitLastColon
    cases hs : splitLastColon s with
    | some x =>
      obtain ⟨h', p'⟩ := x
      obtain ⟨h1, h2⟩ := (ih h' p').1 hs
      simp only [Option.some.injEq, Prod.mk.injEq]
      constructor
      · rintro ⟨rfl, rfl⟩; exact ⟨by rw [h1]; rfl, h2⟩
      · rintro ⟨h3, h4⟩
        cases h with
        | nil =>
          simp only [List.nil_append, List.cons.injEq] at h3
          rw [← h3.2, h1] at h4
          simp at h4
        | cons d h =>
          simp only [List.cons_append, List.cons.injEq] at h3
          have := (ih h p).2 ⟨h3.2, h4⟩
          rw [hs] at this
          cases this
          exact ⟨by rw [h3.1], rfl⟩
    | none =>
      have hno : (58 : UInt8) ∉ s := by
        intro hm
        obtain ⟨a, b, rfl, hb⟩ : ∃ a b, s = a ++ 58 :: b ∧ (58 : UInt8) ∉ b := by
          clear hs ih
          induction s with
          | nil => cases hm
          | cons x s ih =>
            by_cases hx : (58 : UInt8) ∈ s
            · obtain ⟨a, b, rfl, hb⟩ := ih hx
              exact ⟨x :: a, b, rfl, hb⟩
            · rcases List.mem_cons.1 hm with rfl | hm
              · exact ⟨[], s, rfl, hx⟩
              · exact absurd hm hx
        have := (ih a b).2 ⟨rfl, hb⟩
        rw [hs] at this; cases this
      constructor
      · intro he
        by_cases hc : c = 58
        · simp only [hc, if_true, Option.some.injEq, Prod.mk.injEq] at he
          obtain ⟨rfl, rfl⟩ := he
          exact ⟨by rw [hc]; rfl, hno⟩
        · simp [hc] at he
      · rintro ⟨h3, h4⟩
        cases h with
        | nil =>
          simp only [List.nil_append, List.cons.injEq] at h3
          obtain ⟨rfl, rfl⟩ := h3
          simp
        | cons d h =>
          simp only [List.cons_append, List.cons.injEq] at h3
          rw [h3.2] at hno
          simp at hno

theorem fmtInt_chars (n : Int) : ∀ c ∈ fmtInt n, c = 45 ∨ (48 ≤ c.toNat ∧ c.toNat ≤ 57) := by
  intro c hc
  unfold fmtInt at hc
  split at hc
  · rcases List.mem_cons.1 hc with rfl | hc
    · exact .inl rfl
    · exact .inr ((fmtNat_digits _).2.1 c hc)
  · exact .inr ((fmtNat_digits _).2.1 c hc)

/-- Texts net.ParseIP accepts do not begin with a bracket. -/
theorem parseIP_head {h : Bytes} (hp : netParseIP h = true) : h.head? ≠ some 91 := by
  intro hh
  obtain ⟨s, rfl⟩ : ∃ s, h = 91 :: s := by
    cases h with
    | nil => cases hh
    | cons c s => simp only [List.head?_cons, Option.some.injEq] at hh; exact ⟨s, by rw [hh]⟩
  unfold netParseIP at hp
  split at hp
  · rw [parseIPv4_iff] at hp
    have := ipv4_chars hp 91 (by simp)
    revert this; decide
  · simp [parseIPv6, parseIPv6Loop, hextet, hexDigit] at hp
  · cases hp

/-- C76: an accepted configuration gives the address of its host and its port, if the host has no colon and the port is one; otherwise
net.Listen fails. -/
theorem C76_address (conf : Conf) (hp : netParseIP conf.host = true) (hi : InI64 conf.port) :
    listenAt conf = if 58 ∉ conf.host ∧ 0 ≤ conf.port ∧ conf.port ≤ 65535 then some (conf.host, conf.port.toNat) else none := by
  have hport : (58 : UInt8) ∉ fmtInt conf.port := fun hm => by rcases fmtInt_chars _ 58 hm with h | h <;> revert h <;> decide
  have hs : splitLastColon (listenAddr conf) = some (conf.host, fmtInt conf.port) :=
    (splitLastColon_iff _ _ _).2 ⟨by simp [listenAddr], hport⟩
  have hhead : (listenAddr conf).head? ≠ some 91 := by
    have := parseIP_head hp
    unfold listenAddr
    cases hh : conf.host with
    | nil => simp
    | cons c s => rw [hh] at this; simpa using this
  have hl : lookupPort (fmtInt conf.port) = if 0 ≤ conf.port ∧ conf.port ≤ 65535 then some conf.port.toNat else none := by
    simp only [lookupPort, atoi_fmtInt _ hi]
  unfold listenAt splitHostPort
  simp only [hs]
  rw [if_neg hhead]
  by_cases hc : (58 : UInt8) ∈ conf.host
  · simp [hc]
  · have h4 := (C76_ipv4 conf.host).1 ⟨hp, hc⟩
    have hb : (91 : UInt8) ∉ listenAddr conf ∧ (93 : UInt8) ∉ listenAddr conf := by
      unfold listenAddr
      simp only [List.mem_append, List.mem_singleton, not_or]
      refine ⟨⟨⟨fun h => ?_, by decide⟩, fun h => ?_⟩, ⟨fun h => ?_, by decide⟩, fun h => ?_⟩
      · rcases ipv4_chars h4 _ h with h | h <;> revert h <;> decide
      · rcases fmtInt_chars _ _ h with h | h <;> revert h <;> decide
      · rcases ipv4_chars h4 _ h with h | h <;> revert h <;> decide
      · rcases fmtInt_chars _ _ h with h | h <;> revert h <;> decide
    simp only [hc, hb.1, hb.2, or_self, if_false, hl, not_false_eq_true, true_and]
    split <;> rfl

theorem confLine_port {parseIP : Bytes → Bool} {c c' : Conf} {name : Bytes} {args : List Bytes} (h : confLine parseIP c name args = .ok c')
    (hc : InI64 c.port) : InI64 c'.port := by
  unfold confLine at h
  simp only at h
  repeat' split at h
  all_goals first
    | cases h
  all_goals first
    | exact hc
    | exact ((atoi_iff _ _).1 (by assumption)).2

theorem confLoop_port {parseIP : Bytes → Bool} {n : Nat} {c c' : Conf} {inp : Bytes} (h : confLoop parseIP n c inp = .ok c')
    (hc : InI64 c.port) : InI64 c'.port := by
  induction n generalizing c inp with
  | zero => cases h
  | succ n ih =>
    simp only [confLoop] at h
    split at h
    · exact ih h hc
    · split at h
      · next hl =>
        split at h
        · cases h; exact confLine_port hl hc
        · exact ih h (confLine_port hl hc)
      · next hne => exact absurd h (hne _)

/-- The configuration that `Init` returns has a host that net.ParseIP accepts and a port of 64 bits. -/
theorem conf_accepted {n : Nat} {flags conf : Conf} {file : Option (Option Bytes)} (hf : InI64 flags.port)
    (h : confInit netParseIP n flags file = .ok conf) : netParseIP conf.host = true ∧ InI64 conf.port := by
  refine ⟨C56_host netParseIP flags conf file n h, ?_⟩
  unfold confInit at h
  split at h
  · cases h
  · split at h
    · cases h; exact hf
    · cases h
    · exact confLoop_port h hf

/-- C76, in full: if the configuration is accepted, the log can be opened and the operating system lets the process listen on any
address, then the server listens on the configured host and port. -/
def C76_Statement : Prop :=
  ∀ (fuel : Nat) (flags conf : Conf) (file : Option (Option Bytes)) (disk : LogDisk), InI64 flags.port →
    confInit netParseIP fuel flags file = .ok conf → (∃ log, Log.init conf.logLevel disk = some log) →
    ∃ s len log, launch fuel flags file disk (fun _ _ => true) = .serving (conf.host, conf.port.toNat) s len log ∧ (conf.port.toNat : Int) = conf.port

/-- C76 (partial): exactly if the host is an IPv4 address, the port is at least 0 and at most 65535, there is a database and the number
of segments is not negative. -/
theorem C76_serves_partial (fuel : Nat) (flags conf : Conf) (file : Option (Option Bytes)) (disk : LogDisk) (hf : InI64 flags.port)
    (hc : confInit netParseIP fuel flags file = .ok conf) (hl : ∃ log, Log.init conf.logLevel disk = some log) :
    (∃ s len log, launch fuel flags file disk (fun _ _ => true) = .serving (conf.host, conf.port.toNat) s len log ∧ (conf.port.toNat : Int) = conf.port) ↔
    IPv4 conf.host ∧ 0 ≤ conf.port ∧ conf.port ≤ 65535 ∧ 0 < conf.dbNum ∧ 0 ≤ conf.segNum := by
  obtain ⟨hp, hi⟩ := conf_accepted hf hc
  obtain ⟨log, hl⟩ := hl
  have ha := C76_address conf hp hi
  have h4 : IPv4 conf.host ↔ 58 ∉ conf.host := by rw [← C76_ipv4]; simp [hp]
  unfold launch
  simp only [hc, hl, ha, if_true]
  by_cases hx : 58 ∉ conf.host ∧ 0 ≤ conf.port ∧ conf.port ≤ 65535
  · simp only [hx, not_false_eq_true, and_self, if_true]
    have hnat : (conf.port.toNat : Int) = conf.port := Int.toNat_of_nonneg hx.2.1
    constructor
    · rintro ⟨s, len, log', h, -⟩
      split at h
      · cases h
      · next s' len' hs =>
        unfold start at hs
        split at hs
        · cases hs
        · next hm =>
          simp only [newManager] at hm
          repeat' split at hm
          all_goals first
            | cases hm
          exact ⟨h4.2 hx.1, trivial, trivial, by omega, by omega⟩
    · rintro ⟨-, -, -, hd, hs⟩
      have : ∃ s, newManager conf.dbNum conf.segNum = .ok s := by
        unfold newManager
        rw [if_neg (by omega), if_neg (by omega), if_neg (by omega)]; exact ⟨_, rfl⟩
      obtain ⟨s, hm⟩ := this
      exact ⟨s, (2 * conf.segNum).toNat, log, by simp only [start, hm], hnat⟩
  · simp only [hx, if_false]
    constructor
    · rintro ⟨s, len, log', h, -⟩; cases h
    · rintro ⟨h1, h2, h3, -⟩; exact absurd ⟨h4.1 h1, h2, h3⟩ hx

/-- C76: the process exits with status 1 if the configuration is not accepted, the log cannot be opened, or it cannot listen; otherwise
it serves, crashes, or reads its configuration for ever. -/
theorem C76_exit (fuel : Nat) (flags : Conf) (file : Option (Option Bytes)) (disk : LogDisk) (bind : Bytes → Nat → Bool) (code : Nat) :
    launch fuel flags file disk bind = .exit code ↔ code = 1 ∧
      (confInit netParseIP fuel flags file = .error ∨ ∃ conf, confInit netParseIP fuel flags file = .ok conf ∧
        (Log.init conf.logLevel disk = none ∨ listenAt conf = none ∨ ∃ h n, listenAt conf = some (h, n) ∧ bind h n = false)) := by
  have hex : (Launch.exit 1 = Launch.exit code) ↔ code = 1 := ⟨fun h => by cases h; rfl, fun h => by rw [h]⟩
  unfold launch
  cases confInit netParseIP fuel flags file with
  | error => simp [hex]
  | fault f => simp
  | running => simp
  | ok conf =>
    simp only [reduceCtorEq, ConfRes.ok.injEq, false_or, exists_eq_left']
    cases Log.init conf.logLevel disk with
    | none => simp [hex]
    | some log =>
      cases listenAt conf with
      | none => simp [hex]
      | some x =>
        obtain ⟨h, n⟩ := x
        simp only [reduceCtorEq, Option.some.injEq, Prod.mk.injEq, false_or]
        cases hb : bind h n with
        | false =>
          simp only [Bool.false_eq_true, if_false, hex]
          exact ⟨fun h1 => ⟨h1, h, n, ⟨rfl, rfl⟩, hb⟩, fun h => h.1⟩
        | true =>
          simp only [if_true]
          constructor
          · intro h; cases hs : start conf <;> rw [hs] at h <;> cases h
          · rintro ⟨-, h', n', ⟨rfl, rfl⟩, hb'⟩; rw [hb] at hb'; cases hb'

/-- C76 is false of the code: an IPv6 address is accepted as host and then joined with the port by a colon without brackets, which
net.Listen does not take. -/
theorem C76_refuted : ¬ C76_Statement := by
  intro h
  have hc : confInit netParseIP 0 { Conf.default with host := b!"::1" } none = .ok { Conf.default with host := b!"::1" } := by decide +kernel
  have := (C76_serves_partial 0 { Conf.default with host := b!"::1" } _ none ⟨true, true, true, none⟩ ⟨by decide, by decide⟩ hc ⟨_, rfl⟩).1
    (h _ _ _ _ _ ⟨by decide, by decide⟩ hc ⟨_, rfl⟩)
  exact ((C76_ipv4 b!"::1").2 this.1).2 (by decide)

-- the default configuration, other addresses, and what net.Listen makes of them
example : listenAt Conf.default = some (b!"127.0.0.1", 6379) ∧ listenAddr { Conf.default with host := b!"::1" } = b!"::1:6379" ∧
    listenAt { Conf.default with host := b!"::1" } = none ∧ listenAt { Conf.default with port := 65536 } = none ∧
    listenAt { Conf.default with port := -1 } = none := by decide +kernel
example : [b!"0.0.0.0", b!"255.255.255.255", b!"1.2.3", b!"1.2.3.4.5", b!"256.1.1.1", b!"01.2.3.4", b!"1..2.3", b!"localhost", b!"", b!"1.2.3.4:5"].map netParseIP =
    [true, true, false, false, false, false, false, false, false, false] := by decide +kernel
example : [b!"::", b!"::1", b!"1::", b!"fe80::1:2", b!"1:2:3:4:5:6:7:8", b!"::ffff:1.2.3.4", b!"1:2:3:4:5:6:1.2.3.4", b!"1:2:3:4:5:6:7", b!"1:2:3:4:5:6:7:8:9",
    b!"1::2::3", b!":1", b!"1:", b!"12345::", b!"::g", b!"1:2:3:4:5:6:7::", b!"1:2:3:4:5:6:7:8::"].map netParseIP =
    [true, true, true, true, true, true, true, false, false, false, false, false, false, false, true, false] := by decide +kernel
example : splitHostPort b!"[::1]:80" = some (b!"::1", b!"80") ∧ splitHostPort b!"a:b:c" = none ∧ splitHostPort b!"host" = none ∧
    splitHostPort b!"[::1]" = none := by decide +kernel
example : launch 0 .default none ⟨false, true, true, none⟩ (fun _ _ => false) = .exit 1 := (C76_exit ..).2
  ⟨rfl, .inr ⟨_, rfl, .inr (.inr ⟨b!"127.0.0.1", 6379, by decide +kernel, rfl⟩)⟩⟩

end GRedis
