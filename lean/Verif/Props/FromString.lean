import Verif.Proofs.FromString

/-!
# Properties C04–C08: conversion of tokens to parameter values
-/

namespace Verif.Props
open Verif.FromString Verif.Number

/-- A usual platform: `char` signed, wrapping signed overflow, no floating point or custom conversions. -/
def plat : Platform :=
  { charSigned := true, strictOverflow := false, parseFloat := fun _ _ => none, extract := fun _ _ => .ok none }

/-- **C04** An unsigned parameter accepts a token iff it is an optional `+` followed by digits whose value fits, and delivers
    that value. For every platform and width. -/
theorem C04_unsigned_exact (p : Platform) (w : Width) (s : Str) (v : Value) :
    fromString p (.unsigned w) s = .ok v ↔ ∃ n : Nat, v = .int n ∧ SpellsNat s n ∧ n < w.card := by
  simp only [fromString]
  cases h : unsignedFromString p w s with
  | error e =>
    simp only [Except.map, reduceCtorEq, false_iff]
    rintro ⟨n, _, hn⟩
    rw [(unsigned_ok p w s n).2 hn] at h; cases h
  | ok m =>
    simp only [Except.map, Except.ok.injEq]
    constructor
    · rintro rfl; exact ⟨m, rfl, (unsigned_ok p w s m).1 h⟩
    · rintro ⟨n, rfl, hn⟩
      rw [(unsigned_ok p w s n).2 hn] at h; injection h with h; subst h; rfl

/-- **C04** (partial) Every other token is rejected with `bad_conversion`. Missing: see `C04_refuted_undefined`. (The exception made for bytes 128–254 on platforms with signed `char`
    is the undefined behaviour that property C07 is about.) -/
theorem C04_unsigned_rejects_partial (p : Platform) (w : Width) (s : Str)
    (h : ¬ ∃ n : Nat, SpellsNat s n ∧ n < w.card) :
    fromString p (.unsigned w) s = .error .bad ∨
      (fromString p (.unsigned w) s = .error (.ub .ctype) ∧ ∃ c ∈ s, p.ctypeUB c = true) := by
  simp only [fromString]
  cases hu : unsignedFromString p w s with
  | ok m => exact absurd ⟨m, (unsigned_ok p w s m).1 hu⟩ h
  | error e =>
    rcases unsigned_error p w s hu with rfl | ⟨rfl, h2⟩
    · exact .inl rfl
    · exact .inr ⟨rfl, h2⟩

example : fromString plat (.unsigned .w8) bs!"+0255" = .ok (.int 255) := by rfl
example : fromString plat (.unsigned .w8) bs!"256" = .error .bad := by rfl
example : fromString plat (.unsigned .w64) bs!"18446744073709551615" = .ok (.int 18446744073709551615) := by rfl
example : fromString plat (.unsigned .w64) bs!"18446744073709551616" = .error .bad := by rfl
example : SpellsNat bs!"+0255" 255 ∧ 255 < Width.w8.card :=
  ⟨⟨bs!"0255", .inr rfl, ⟨by decide, by unfold Digit; decide⟩, by decide⟩, by decide⟩

theorem narrow_iff (w : Width) : w.narrow = true ↔ w = .w8 ∨ w = .w16 := by cases w <;> simp [Width.narrow]

/-- **C05** (partial) A signed parameter accepts a token iff it is an optional sign followed by digits whose signed value fits,
    and delivers that value — for the 8 and 16 bit types on every platform, for the 32 and 64 bit types on platforms where signed
    overflow wraps, and in any case for tokens without minus sign.
    Missing from the full statement: negative 32/64 bit numbers when signed overflow is undefined
    (see `C05_refuted_strict_overflow`). -/
theorem C05_signed_exact_partial (p : Platform) (w : Width) (s : Str) (v : Value)
    (hp : p.strictOverflow = false ∨ (w = .w8 ∨ w = .w16) ∨ s.head? ≠ some b%'-') :
    fromString p (.signed w) s = .ok v ↔
      ∃ i : Int, v = .int i ∧ SpellsInt s i ∧ -((w.card / 2 : Nat) : Int) ≤ i ∧ i < ((w.card / 2 : Nat) : Int) := by
  rw [← narrow_iff] at hp
  simp only [fromString]
  cases h : signedFromString p w s with
  | error e =>
    simp only [Except.map, reduceCtorEq, false_iff]
    rintro ⟨n, _, hn⟩
    rw [(signed_ok p w s n hp).2 hn] at h; cases h
  | ok m =>
    simp only [Except.map, Except.ok.injEq]
    constructor
    · rintro rfl; exact ⟨m, rfl, (signed_ok p w s m hp).1 h⟩
    · rintro ⟨n, rfl, hn⟩
      rw [(signed_ok p w s n hp).2 hn] at h; injection h with h; subst h; rfl

/-- **C05** (partial) Under the same conditions every other token is rejected with `bad_conversion` (or is one of the tokens of C07). -/
theorem C05_signed_rejects_partial (p : Platform) (w : Width) (s : Str)
    (hp : p.strictOverflow = false ∨ (w = .w8 ∨ w = .w16) ∨ s.head? ≠ some b%'-')
    (h : ¬ ∃ i : Int, SpellsInt s i ∧ -((w.card / 2 : Nat) : Int) ≤ i ∧ i < ((w.card / 2 : Nat) : Int)) :
    fromString p (.signed w) s = .error .bad ∨
      (fromString p (.signed w) s = .error (.ub .ctype) ∧ ∃ c ∈ s, p.ctypeUB c = true) := by
  rw [← narrow_iff] at hp
  simp only [fromString]
  cases hu : signedFromString p w s with
  | ok m => exact absurd ⟨m, (signed_ok p w s m hp).1 hu⟩ h
  | error e =>
    rcases signed_error p w s hu with rfl | ⟨rfl, h2⟩ | ⟨rfl, h2, h3, h4⟩
    · exact .inl rfl
    · exact .inr ⟨rfl, h2⟩
    · rcases hp with hp | hp | hp
      · rw [hp] at h2; cases h2
      · rw [hp] at h3; cases h3
      · exact absurd h4 hp

/-- **C05** On no platform does a signed parameter accept anything else, or deliver another value: soundness without
    any condition. -/
theorem C05_signed_sound (p : Platform) (w : Width) (s : Str) (v : Value)
    (h : fromString p (.signed w) s = .ok v) :
      ∃ i : Int, v = .int i ∧ SpellsInt s i ∧ -((w.card / 2 : Nat) : Int) ≤ i ∧ i < ((w.card / 2 : Nat) : Int) := by
  by_cases hp : p.strictOverflow = false ∨ w.narrow = true ∨ s.head? ≠ some b%'-'
  · exact (C05_signed_exact_partial p w s v (by rwa [← narrow_iff])).1 h
  · exfalso
    simp only [not_or, Bool.not_eq_false, Bool.not_eq_true, ne_eq, Classical.not_not] at hp
    obtain ⟨h1, h2, h3⟩ := hp
    cases s with
    | nil => simp at h3
    | cons c cs =>
      simp only [List.head?_cons, Option.some.injEq] at h3
      subst h3
      cases hu : unsignedDigits p w cs with
      | error e => simp [fromString, signedFromString, hu, bind, Except.bind, Except.map] at h
      | ok v => simp [fromString, signedFromString, hu, bind, Except.bind, negate, h1, h2, Except.map] at h

/-- **C05 is false of the code** where signed overflow is undefined: *every* negative number (any digits whose value is below 2^32
    or 2^64) given to an `int`, `long` or `long long` parameter evaluates `-min`, which overflows. -/
theorem C05_refuted_strict_overflow (p : Platform) (hp : p.strictOverflow = true) (w : Width) (hw : w = .w32 ∨ w = .w64)
    (ds : Str) (hd : Digits ds) (hv : value ds < w.card) :
    fromString p (.signed w) (b%'-' :: ds) = .error (.ub .signedOverflow) := by
  have hw : w.narrow = false := by rcases hw with rfl | rfl <;> rfl
  simp [fromString, signed_overflow p w hp hw ds hd hv, Except.map]

example : fromString plat (.signed .w8) bs!"-128" = .ok (.int (-128)) := by rfl
example : fromString plat (.signed .w8) bs!"128" = .error .bad := by rfl
example : fromString plat (.signed .w32) bs!"-2147483648" = .ok (.int (-2147483648)) := by rfl
example : fromString plat (.signed .w32) bs!"-2147483649" = .error .bad := by rfl
example : fromString { plat with strictOverflow := true } (.signed .w32) bs!"-5" = .error (.ub .signedOverflow) := by rfl

/-- **C06** A char parameter accepts exactly the one-byte tokens. -/
theorem C06_char (p : Platform) (s : Str) (v : Value) :
    fromString p .char s = .ok v ↔ ∃ c, s = [c] ∧ v = .char c := by
  match s with
  | [] => simp [fromString, charFromString, Except.map]
  | [c] => simp [fromString, charFromString, Except.map, eq_comm]
  | _ :: _ :: _ => simp [fromString, charFromString, Except.map]

/-- **C06** A char parameter rejects every other token. -/
theorem C06_char_rejects (p : Platform) (s : Str) (h : s.length ≠ 1) : fromString p .char s = .error .bad := by
  match s, h with
  | [], _ => rfl
  | [c], h => simp at h
  | _ :: _ :: _, _ => rfl

/-- **C06** A string parameter accepts every token unchanged. -/
theorem C06_string (p : Platform) (s : Str) : fromString p .string s = .ok (.str s) := rfl

/-- What a bool parameter should accept. -/
def SpellsBool (s : Str) (b : Bool) : Prop :=
  (s = bs!"true" ∧ b = true) ∨ (s = bs!"false" ∧ b = false) ∨ (SpellsInt s 1 ∧ b = true) ∨ (SpellsInt s 0 ∧ b = false)

/-- **C06** (partial) A bool parameter accepts exactly `true`, `false` and the integer spellings of 1 and 0.
    Missing: tokens starting with `-` (that is, `-0`, `-00`, …) where signed overflow is undefined
    (see `C06_refuted_minus_zero`). -/
theorem C06_bool_partial (p : Platform) (s : Str) (v : Value)
    (hp : p.strictOverflow = false ∨ s.head? ≠ some b%'-') :
    fromString p .bool s = .ok v ↔ ∃ b, v = .bool b ∧ SpellsBool s b := by
  have hp' : p.strictOverflow = false ∨ Width.w64.narrow = true ∨ s.head? ≠ some b%'-' :=
    hp.elim .inl fun h => .inr (.inr h)
  have hno : ∀ (t : Str) (i : Int), (t = bs!"true" ∨ t = bs!"false") → ¬ SpellsInt t i := by
    rintro t i ht ⟨ds, ⟨_, hd⟩, h⟩
    have hh : ∀ c, c ∈ ds → Digit c := hd
    rcases ht with rfl | rfl <;> rcases h with ⟨rfl, _⟩ | ⟨h, _⟩ | ⟨h, _⟩
    · exact absurd (hh b%'t' (by decide)) (by unfold Digit; decide)
    · simp at h
    · simp at h
    · exact absurd (hh b%'f' (by decide)) (by unfold Digit; decide)
    · simp at h
    · simp at h
  unfold fromString boolFromString
  by_cases h1 : s = bs!"true"
  · simp only [h1, if_true, Except.map, Except.ok.injEq]
    constructor
    · rintro rfl; exact ⟨true, rfl, .inl ⟨rfl, rfl⟩⟩
    · rintro ⟨b, rfl, ⟨_, h⟩ | ⟨h, _⟩ | ⟨h, _⟩ | ⟨h, _⟩⟩
      · rw [h]
      · simp at h
      · exact absurd h (hno _ _ (.inl rfl))
      · exact absurd h (hno _ _ (.inl rfl))
  · by_cases h2 : s = bs!"false"
    · subst h2
      rw [if_neg h1, if_pos rfl]
      simp only [Except.map, Except.ok.injEq]
      constructor
      · rintro rfl; exact ⟨false, rfl, .inr (.inl ⟨rfl, rfl⟩)⟩
      · rintro ⟨b, rfl, ⟨h, _⟩ | ⟨_, h⟩ | ⟨h, _⟩ | ⟨h, _⟩⟩
        · exact absurd h h1
        · rw [h]
        · exact absurd h (hno _ _ (.inr rfl))
        · exact absurd h (hno _ _ (.inr rfl))
    · simp only [h1, h2, if_false]
      cases hs : signedFromString p .w64 s with
      | error e =>
        simp only [bind, Except.bind, Except.map, reduceCtorEq, false_iff]
        rintro ⟨b, rfl, ⟨h, _⟩ | ⟨h, _⟩ | ⟨h, _⟩ | ⟨h, _⟩⟩
        · exact h1 h
        · exact h2 h
        · rw [(signed_ok p .w64 s 1 hp').2 ⟨h, by decide, by decide⟩] at hs; cases hs
        · rw [(signed_ok p .w64 s 0 hp').2 ⟨h, by decide, by decide⟩] at hs; cases hs
      | ok i =>
        have hi := (signed_ok p .w64 s i hp').1 hs
        simp only [bind, Except.bind, pure, Except.pure, throw, throwThe, MonadExceptOf.throw]
        by_cases hi1 : i = 1
        · subst hi1
          simp only [if_true, Except.map, Except.ok.injEq]
          constructor
          · rintro rfl; exact ⟨true, rfl, .inr (.inr (.inl ⟨hi.1, rfl⟩))⟩
          · rintro ⟨b, rfl, ⟨h, _⟩ | ⟨h, _⟩ | ⟨h, rfl⟩ | ⟨h, _⟩⟩
            · exact absurd h h1
            · exact absurd h h2
            · rfl
            · have := (signed_ok p .w64 s 0 hp').2 ⟨h, by decide, by decide⟩
              rw [hs] at this; simp at this
        · by_cases hi0 : i = 0
          · subst hi0
            simp only [hi1, if_true, if_false, Except.map, Except.ok.injEq]
            constructor
            · rintro rfl; exact ⟨false, rfl, .inr (.inr (.inr ⟨hi.1, rfl⟩))⟩
            · rintro ⟨b, rfl, ⟨h, _⟩ | ⟨h, _⟩ | ⟨h, rfl⟩ | ⟨h, rfl⟩⟩
              · exact absurd h h1
              · exact absurd h h2
              · have := (signed_ok p .w64 s 1 hp').2 ⟨h, by decide, by decide⟩
                rw [hs] at this; simp at this
              · rfl
          · simp only [hi1, hi0, if_false, Except.map, reduceCtorEq, false_iff]
            rintro ⟨b, rfl, ⟨h, _⟩ | ⟨h, _⟩ | ⟨h, rfl⟩ | ⟨h, rfl⟩⟩
            · exact absurd h h1
            · exact absurd h h2
            · have := (signed_ok p .w64 s 1 hp').2 ⟨h, by decide, by decide⟩
              rw [hs] at this; injection this with this; exact absurd this hi1
            · have := (signed_ok p .w64 s 0 hp').2 ⟨h, by decide, by decide⟩
              rw [hs] at this; injection this with this; exact absurd this hi0

/-- **C06 is false of the code** for `-0` where signed overflow is undefined. -/
theorem C06_refuted_minus_zero : ∃ (p : Platform) (s : Str), SpellsBool s false ∧
    fromString p .bool s = .error (.ub .signedOverflow) :=
  ⟨{ plat with strictOverflow := true }, bs!"-0",
    .inr (.inr (.inr ⟨⟨bs!"0", ⟨by decide, by unfold Digit; decide⟩, .inr (.inr ⟨rfl, by decide⟩)⟩, rfl⟩)), by rfl⟩

example : fromString plat .bool bs!"+0001" = .ok (.bool true) := by rfl
example : fromString plat .bool bs!"-0" = .ok (.bool false) := by rfl
example : fromString plat .bool bs!"True" = .error .bad := by rfl
example : fromString plat .bool bs!"2" = .error .bad := by rfl

/-- **C07** (partial) The only undefined behaviour a conversion can execute is (a) a `<cctype>` call on a byte 128–254 where
    `char` is signed, in integral, bool and floating point conversions, and (b) the overflow of C05.
    The full statement (no undefined behaviour at all) is refuted below. -/
theorem C07_conversion_ub_partial (p : Platform) (ty : ParamTy) (s : Str) (u : UB)
    (h : fromString p ty s = .error (.ub u)) :
    (u = .ctype ∧ p.charSigned = true ∧ ∃ c ∈ s, 128 ≤ c.toNat ∧ c.toNat ≤ 254) ∨
    (u = .signedOverflow ∧ p.strictOverflow = true ∧ s.head? = some b%'-' ∧
      (ty = .bool ∨ ty = .signed .w32 ∨ ty = .signed .w64)) := by
  have hct : ∀ c, p.ctypeUB c = true → p.charSigned = true ∧ 128 ≤ c.toNat ∧ c.toNat ≤ 254 := by
    intro c hc
    simp only [Platform.ctypeUB, Bool.and_eq_true, decide_eq_true_eq] at hc
    exact ⟨hc.1.1, hc.1.2, hc.2⟩
  have mk : (∃ c ∈ s, p.ctypeUB c = true) → p.charSigned = true ∧ ∃ c ∈ s, 128 ≤ c.toNat ∧ c.toNat ≤ 254 := by
    rintro ⟨c, hc, hu⟩; exact ⟨(hct c hu).1, c, hc, (hct c hu).2⟩
  cases ty with
  | unsigned w =>
    simp only [fromString] at h
    cases hu : unsignedFromString p w s with
    | ok m => simp [hu, Except.map] at h
    | error e =>
      simp only [hu, Except.map, Except.error.injEq] at h; subst h
      rcases unsigned_error p w s hu with h | ⟨h, h2⟩
      · cases h
      · injection h with h; exact .inl ⟨h, mk h2⟩
  | signed w =>
    simp only [fromString] at h
    cases hu : signedFromString p w s with
    | ok m => simp [hu, Except.map] at h
    | error e =>
      simp only [hu, Except.map, Except.error.injEq] at h; subst h
      rcases signed_error p w s hu with h | ⟨h, h2⟩ | ⟨h, h2, h3, h4⟩
      · cases h
      · injection h with h; exact .inl ⟨h, mk h2⟩
      · injection h with h
        refine .inr ⟨h, h2, h4, ?_⟩
        cases w <;> simp_all [Width.narrow]
  | bool =>
    simp only [fromString, boolFromString] at h
    split at h
    · simp [Except.map] at h
    · split at h
      · simp [Except.map] at h
      · cases hu : signedFromString p .w64 s with
        | ok m =>
          simp only [hu, bind, Except.bind, pure, Except.pure, throw, throwThe, MonadExceptOf.throw] at h
          split at h
          · simp [Except.map] at h
          · split at h <;> simp [Except.map] at h
        | error e =>
          simp only [hu, bind, Except.bind, Except.map, Except.error.injEq] at h; subst h
          rcases signed_error p .w64 s hu with h | ⟨h, h2⟩ | ⟨h, h2, h3, h4⟩
          · cases h
          · injection h with h; exact .inl ⟨h, mk h2⟩
          · injection h with h; exact .inr ⟨h, h2, h4, .inl rfl⟩
  | char =>
    match s, h with
    | [], h => simp [fromString, charFromString, Except.map] at h
    | [c], h => simp [fromString, charFromString, Except.map] at h
    | _ :: _ :: _, h => simp [fromString, charFromString, Except.map] at h
  | string => simp [fromString] at h
  | float k =>
    simp only [fromString, floatFromString] at h
    cases hs : anySpace p s with
    | error e =>
      obtain ⟨rfl, h2⟩ := anySpace_error p s e hs
      simp [hs, bind, Except.bind, Except.map] at h; subst h
      exact .inl ⟨rfl, mk h2⟩
    | ok b =>
      cases b <;> simp only [hs, bind, Except.bind, pure, Except.pure, throw, throwThe, MonadExceptOf.throw] at h
      · split at h
        · simp [Except.map] at h
        · split at h
          · simp [Except.map] at h
          · split at h <;> simp [Except.map] at h
      · simp [Except.map] at h
  | custom k =>
    simp only [fromString, customFromString] at h
    split at h
    · simp [Except.map] at h
    · simp [Except.map] at h
    · split at h <;> simp [Except.map] at h
  | null => simp [fromString] at h

/-- **C07** is false of the code: a byte above 127 in a numeric argument where `char` is signed. -/
theorem C07_refuted_high_byte : ∃ (p : Platform) (s : Str), p.strictOverflow = false ∧
    fromString p (.signed .w32) s = .error (.ub .ctype) ∧ fromString p (.float 1) s = .error (.ub .ctype) :=
  ⟨plat, [b%'1', 0xC3, 0xA8], rfl, by rfl, by rfl⟩

/-- **C08** A floating point parameter is accepted only if the token contains no whitespace and the standard conversion consumes all of it;
    the handler gets the value of that conversion. -/
theorem C08_float_whole_token (p : Platform) (k : Nat) (s : Str) (v : Value)
    (h : fromString p (.float k) s = .ok v) :
    (∀ c ∈ s, Spec.blank c = false) ∧ ∃ n, p.parseFloat k s = some (n, s.length) ∧ v = .float k n := by
  simp only [fromString, floatFromString] at h
  cases hs : anySpace p s with
  | error e => simp [hs, bind, Except.bind, Except.map] at h
  | ok b =>
    have hb := anySpace_ok p s b hs
    cases b <;> simp only [hs, bind, Except.bind, pure, Except.pure, throw, throwThe, MonadExceptOf.throw] at h
    · simp only [Bool.false_eq_true, if_false] at h
      refine ⟨by simpa using hb.symm, ?_⟩
      split at h
      · simp [Except.map] at h
      · rename_i n sz hpf
        split at h
        · simp [Except.map] at h
        · rename_i hsz
          simp only [Except.map, Except.ok.injEq] at h
          simp only [ne_eq, Classical.not_not] at hsz
          exact ⟨n, by rw [hpf, hsz], h.symm⟩
    · simp [Except.map] at h

/-- **C08** Conversely such a token is accepted (if it contains no byte that `isspace` may not be called with). -/
theorem C08_float_accepts (p : Platform) (k : Nat) (s : Str) (n : Nat) (hub : ∀ c ∈ s, p.ctypeUB c = false)
    (hs : ∀ c ∈ s, Spec.blank c = false) (hn : p.parseFloat k s = some (n, s.length)) :
    fromString p (.float k) s = .ok (.float k n) := by
  have : s.any Spec.blank = false := by simpa using hs
  simp [fromString, floatFromString, anySpace_total p s hub, this, bind, Except.bind, hn, pure, Except.pure, Except.map]

/-- **C08** (partial; missing: undefined behaviour, see `C07_refuted_high_byte`) A floating point conversion that delivers no value is reported as a wrong parameter and never as another exception
    (the remaining case is the undefined behaviour of C07). -/
theorem C08_float_rejects_partial (p : Platform) (k : Nat) (s : Str) (e : ConvErr)
    (h : fromString p (.float k) s = .error e) :
    e = .bad ∨ (e = .ub .ctype ∧ ∃ c ∈ s, p.ctypeUB c = true) := by
  simp only [fromString, floatFromString] at h
  cases hs : anySpace p s with
  | error e' =>
    simp [hs, bind, Except.bind, Except.map] at h; subst h
    exact .inr (anySpace_error p s e' hs)
  | ok b =>
    cases b <;> simp only [hs, bind, Except.bind, pure, Except.pure, throw, throwThe, MonadExceptOf.throw] at h
    · split at h
      · injection h with h; exact .inl h.symm
      · split at h
        · injection h with h; exact .inl h.symm
        · split at h <;> simp [Except.map] at h
          exact .inl h.symm
    · simp [Except.map] at h; exact .inl h.symm

/-- **C08** A custom parameter is accepted exactly if the extraction succeeds and only whitespace follows what it consumed. -/
theorem C08_custom_whole_token (p : Platform) (k : Nat) (s : Str) (v : Value) :
    fromString p (.custom k) s = .ok v ↔
    ∃ n sz, p.extract k s = .ok (some (n, sz)) ∧ (∀ c ∈ s.drop sz, Spec.blank c = true) ∧ v = .custom k n := by
  simp only [fromString, customFromString, isSpace_fun]
  cases hx : p.extract k s with
  | error e => simp [Except.map]
  | ok o =>
    cases o with
    | none => simp [Except.map]
    | some x =>
      obtain ⟨n, sz⟩ := x
      simp only [Except.ok.injEq, Option.some.injEq, Prod.mk.injEq]
      by_cases ha : (s.drop sz).all Spec.blank = true
      · simp only [ha, if_true, Except.map, Except.ok.injEq]
        constructor
        · rintro rfl; exact ⟨n, sz, ⟨rfl, rfl⟩, by simpa using ha, rfl⟩
        · rintro ⟨_, _, ⟨rfl, rfl⟩, _, rfl⟩; rfl
      · simp only [ha, Except.map]
        constructor
        · intro h; cases h
        · rintro ⟨_, _, ⟨rfl, rfl⟩, h, rfl⟩; exact absurd (by simpa using h) ha

/-- **C08** (partial; missing: an `operator>>` that throws, see `C08_refuted_throws`) A custom conversion that fails without throwing is reported as a wrong parameter. -/
theorem C08_custom_rejects_partial (p : Platform) (k : Nat) (s : Str) (e : ConvErr)
    (h : fromString p (.custom k) s = .error e) :
    e = .bad ∨ ∃ x, p.extract k s = .error x ∧ e = .exn x := by
  simp only [fromString, customFromString] at h
  cases hx : p.extract k s with
  | error x => simp [hx, Except.map] at h; exact .inr ⟨x, rfl, h.symm⟩
  | ok o =>
    left
    cases o with
    | none => simp [hx, Except.map] at h; exact h.symm
    | some y =>
      obtain ⟨n, sz⟩ := y
      simp only [hx] at h
      split at h <;> simp [Except.map] at h
      exact h.symm

/-- A conversion function that reads the leading digits. -/
def platF : Platform :=
  { plat with parseFloat := fun _ s => if s.takeWhile isDigit = [] then none else some (7, (s.takeWhile isDigit).length) }

example : fromString platF (.float 1) bs!"12" = .ok (.float 1 7) := by rfl
example : fromString platF (.float 1) bs!"12a" = .error .bad := by rfl
example : fromString platF (.float 1) bs!" 12" = .error .bad := by rfl

end Verif.Props
