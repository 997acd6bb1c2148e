import Verif.Model.Lexical
import Verif.Props.FromString

/-!
# Property C116: the parameters of commands when Boost converts them
-/

set_option linter.unusedSimpArgs false

namespace Verif.Lexical
open Verif.FromString Verif.Number

theorem foldl_value (s : Str) : ∀ n, s.foldl (fun n c => n * 10 + (c.toNat - 48)) n = n * 10 ^ s.length + value s := by
  induction s with
  | nil => intro n; simp [value]
  | cons c cs ih =>
    intro n
    simp only [List.foldl_cons, ih, value, List.length_cons, Nat.pow_succ]
    rw [Nat.add_mul, Nat.mul_assoc n 10, Nat.mul_comm 10, Nat.add_assoc]

theorem digits_iff (b : Nat) (s : Str) (v : Nat) : digits b s = some v ↔ Digits s ∧ value s = v ∧ v < b := by
  unfold digits
  dsimp only
  have hall : s.all isDigit = true ↔ ∀ c ∈ s, Digit c := by simp [List.all_eq_true, isDigit_iff]
  by_cases h : s ≠ [] ∧ s.all isDigit = true
  · rw [if_pos h, foldl_value, Nat.zero_mul, Nat.zero_add]
    have hd : Digits s := ⟨h.1, hall.1 h.2⟩
    by_cases hv : value s < b
    · simp only [hv, if_true, Option.some.injEq]
      exact ⟨fun e => ⟨hd, e, e ▸ hv⟩, fun e => e.2.1⟩
    · simp only [hv, if_false, reduceCtorEq, false_iff]
      rintro ⟨_, e, h2⟩; exact hv (e ▸ h2)
  · rw [if_neg h]
    simp only [reduceCtorEq, false_iff]
    rintro ⟨hd, _⟩
    exact h ⟨hd.1, hall.2 hd.2⟩

theorem unsigned_iff (w : Width) (s : Str) (n : Nat) (hs : s.head? ≠ some b%'-') : unsigned w s = some n ↔ SpellsNat s n ∧ n < w.card := by
  cases s with
  | nil =>
    simp only [unsigned, reduceCtorEq, false_iff]
    rintro ⟨⟨ds, h | h, hd, _⟩, _⟩
    · exact hd.1 h.symm
    · cases h
  | cons c cs =>
    have hc : c ≠ b%'-' := by simpa using hs
    simp only [unsigned, if_neg hc]
    by_cases hp : c = b%'+'
    · rw [if_pos hp, digits_iff]
      constructor
      · rintro ⟨hd, hv, hb⟩; exact ⟨⟨cs, .inr (by rw [hp]), hd, hv⟩, hb⟩
      · rintro ⟨⟨ds, h | h, hd, hv⟩, hb⟩
        · subst h; subst hp; exact absurd hd not_digit_plus
        · cases h; exact ⟨hd, hv, hb⟩
    · rw [if_neg hp, digits_iff]
      constructor
      · rintro ⟨hd, hv, hb⟩; exact ⟨⟨_, .inl rfl, hd, hv⟩, hb⟩
      · rintro ⟨⟨ds, h | h, hd, hv⟩, hb⟩
        · subst h; exact ⟨hd, hv, hb⟩
        · cases h; exact absurd rfl hp

theorem signed_iff (w : Width) (s : Str) (i : Int) :
    signed w s = some i ↔ SpellsInt s i ∧ -((w.card / 2 : Nat) : Int) ≤ i ∧ i < ((w.card / 2 : Nat) : Int) := by
  have hpos : 0 < w.card / 2 := by cases w <;> decide
  cases s with
  | nil =>
    simp only [signed, reduceCtorEq, false_iff]
    rintro ⟨⟨ds, hd, h⟩, _⟩
    rcases h with h | h | h
    · exact hd.1 h.1.symm
    · cases h.1
    · cases h.1
  | cons c cs =>
    simp only [signed]
    by_cases hm : c = b%'-'
    · rw [if_pos hm, Option.map_eq_some_iff]
      constructor
      · rintro ⟨v, hv, rfl⟩
        rw [digits_iff] at hv
        obtain ⟨hd, hv, hb⟩ := hv
        exact ⟨⟨cs, hd, .inr (.inr ⟨by rw [hm], by rw [hv]⟩)⟩, by omega, by omega⟩
      · rintro ⟨⟨ds, hd, h⟩, h1, h2⟩
        rcases h with ⟨rfl, _⟩ | ⟨h, _⟩ | ⟨h, hi⟩
        · subst hm; exact absurd hd not_digit_minus
        · cases h; exact absurd hm (by decide)
        · cases h
          exact ⟨value cs, (digits_iff _ _ _).2 ⟨hd, rfl, by omega⟩, hi.symm⟩
    · rw [if_neg hm]
      by_cases hp : c = b%'+'
      · rw [if_pos hp, Option.map_eq_some_iff]
        constructor
        · rintro ⟨v, hv, rfl⟩
          rw [digits_iff] at hv
          obtain ⟨hd, hv, hb⟩ := hv
          exact ⟨⟨cs, hd, .inr (.inl ⟨by rw [hp], by rw [hv]⟩)⟩, by omega, by omega⟩
        · rintro ⟨⟨ds, hd, h⟩, h1, h2⟩
          rcases h with ⟨rfl, _⟩ | ⟨h, hi⟩ | ⟨h, _⟩
          · subst hp; exact absurd hd not_digit_plus
          · cases h
            exact ⟨value cs, (digits_iff _ _ _).2 ⟨hd, rfl, by omega⟩, hi.symm⟩
          · cases h; exact absurd rfl hm
      · rw [if_neg hp, Option.map_eq_some_iff]
        constructor
        · rintro ⟨v, hv, rfl⟩
          rw [digits_iff] at hv
          obtain ⟨hd, hv, hb⟩ := hv
          exact ⟨⟨c :: cs, hd, .inl ⟨rfl, by rw [hv]⟩⟩, by omega, by omega⟩
        · rintro ⟨⟨ds, hd, h⟩, h1, h2⟩
          rcases h with ⟨rfl, hi⟩ | ⟨h, _⟩ | ⟨h, _⟩
          · exact ⟨value (c :: cs), (digits_iff _ _ _).2 ⟨hd, rfl, by omega⟩, hi.symm⟩
          · cases h; exact absurd rfl hp
          · cases h; exact absurd rfl hm

theorem bool_iff (s : Str) (b : Bool) : bool s = some b ↔ (SpellsInt s 1 ∧ b = true) ∨ (SpellsInt s 0 ∧ b = false) := by
  cases s with
  | nil =>
    simp only [bool, reduceCtorEq, false_iff]
    rintro (⟨⟨ds, hd, h⟩, _⟩ | ⟨⟨ds, hd, h⟩, _⟩) <;> rcases h with h | h | h
    all_goals first | exact hd.1 h.1.symm | cases h.1
  | cons c cs =>
    simp only [bool]
    by_cases hm : c = b%'-'
    · rw [if_pos hm, Option.map_eq_some_iff]
      constructor
      · rintro ⟨v, hv, rfl⟩
        rw [digits_iff] at hv
        obtain ⟨hd, hv, hb⟩ := hv
        exact .inr ⟨⟨cs, hd, .inr (.inr ⟨by rw [hm], by omega⟩)⟩, rfl⟩
      · rintro (⟨⟨ds, hd, h⟩, hb⟩ | ⟨⟨ds, hd, h⟩, hb⟩) <;> rcases h with ⟨h, hi⟩ | ⟨h, hi⟩ | ⟨h, hi⟩
        · subst h; subst hm; exact absurd hd not_digit_minus
        · cases h; exact absurd hm (by decide)
        · omega
        · subst h; subst hm; exact absurd hd not_digit_minus
        · cases h; exact absurd hm (by decide)
        · cases h; exact ⟨0, (digits_iff _ _ _).2 ⟨hd, by omega, by omega⟩, hb.symm⟩
    · rw [if_neg hm]
      by_cases hp : c = b%'+'
      · rw [if_pos hp, Option.map_eq_some_iff]
        constructor
        · rintro ⟨v, hv, rfl⟩
          rw [digits_iff] at hv
          obtain ⟨hd, hv, hb⟩ := hv
          have : v = 0 ∨ v = 1 := by omega
          rcases this with rfl | rfl
          · exact .inr ⟨⟨cs, hd, .inr (.inl ⟨by rw [hp], by omega⟩)⟩, rfl⟩
          · exact .inl ⟨⟨cs, hd, .inr (.inl ⟨by rw [hp], by omega⟩)⟩, rfl⟩
        · rintro (⟨⟨ds, hd, h⟩, hb⟩ | ⟨⟨ds, hd, h⟩, hb⟩) <;> rcases h with ⟨h, hi⟩ | ⟨h, hi⟩ | ⟨h, hi⟩
          · subst h; subst hp; exact absurd hd not_digit_plus
          · cases h; exact ⟨1, (digits_iff _ _ _).2 ⟨hd, by omega, by omega⟩, hb.symm⟩
          · cases h; exact absurd rfl hm
          · subst h; subst hp; exact absurd hd not_digit_plus
          · cases h; exact ⟨0, (digits_iff _ _ _).2 ⟨hd, by omega, by omega⟩, hb.symm⟩
          · cases h; exact absurd rfl hm
      · rw [if_neg hp, Option.map_eq_some_iff]
        constructor
        · rintro ⟨v, hv, rfl⟩
          rw [digits_iff] at hv
          obtain ⟨hd, hv, hb⟩ := hv
          have : v = 0 ∨ v = 1 := by omega
          rcases this with rfl | rfl
          · exact .inr ⟨⟨_, hd, .inl ⟨rfl, by omega⟩⟩, rfl⟩
          · exact .inl ⟨⟨_, hd, .inl ⟨rfl, by omega⟩⟩, rfl⟩
        · rintro (⟨⟨ds, hd, h⟩, hb⟩ | ⟨⟨ds, hd, h⟩, hb⟩) <;> rcases h with ⟨h, hi⟩ | ⟨h, hi⟩ | ⟨h, hi⟩
          · subst h; exact ⟨1, (digits_iff _ _ _).2 ⟨hd, by omega, by omega⟩, hb.symm⟩
          · cases h; exact absurd rfl hp
          · cases h; exact absurd rfl hm
          · subst h; exact ⟨0, (digits_iff _ _ _).2 ⟨hd, by omega, by omega⟩, hb.symm⟩
          · cases h; exact absurd rfl hp
          · cases h; exact absurd rfl hm

theorem orBad_map {α : Type} (o : Option α) (f : α → Value) (v : Value) : (orBad o).map f = .ok v ↔ ∃ a, o = some a ∧ v = f a := by
  cases o with
  | none => simp [orBad, Except.map]
  | some a => simp [orBad, Except.map, eq_comm]

theorem orBad_map_error {α : Type} (o : Option α) (f : α → Value) (e : ConvErr) : (orBad o).map f = .error e → e = .bad := by
  cases o with
  | none => simp only [orBad, Except.map, Except.error.injEq]; exact fun h => h.symm
  | some a => simp [orBad, Except.map]

/-- **C116** A signed parameter of 16, 32 or 64 bits accepts a token iff it is an optional sign followed by digits whose signed value fits, and delivers that value; without any condition on the platform (compare C05). -/
theorem C116_signed (L : Boost) (w : Width) (hw : w ≠ .w8) (s : Str) (v : Value) :
    fromString L (.signed w) s = .ok v ↔ ∃ i : Int, v = .int i ∧ SpellsInt s i ∧ -((w.card / 2 : Nat) : Int) ≤ i ∧ i < ((w.card / 2 : Nat) : Int) := by
  have : fromString L (.signed w) s = (orBad (signed w s)).map .int := by cases w <;> first | rfl | exact absurd rfl hw
  rw [this, orBad_map]
  constructor
  · rintro ⟨i, hi, rfl⟩; exact ⟨i, rfl, (signed_iff _ _ _).1 hi⟩
  · rintro ⟨i, rfl, hi⟩; exact ⟨i, (signed_iff _ _ _).2 hi, rfl⟩

/-- **C116** (partial) An unsigned parameter of 16, 32 or 64 bits accepts a token that does not begin with a minus sign iff it is an optional `+` followed by digits whose value fits, and delivers that value. Missing: tokens that begin with a minus
    sign, see `C116_minus_refuted`. -/
theorem C116_unsigned_partial (L : Boost) (w : Width) (hw : w ≠ .w8) (s : Str) (hs : s.head? ≠ some b%'-') (v : Value) :
    fromString L (.unsigned w) s = .ok v ↔ ∃ n : Nat, v = .int n ∧ SpellsNat s n ∧ n < w.card := by
  have : fromString L (.unsigned w) s = (orBad (unsigned w s)).map (fun n : Nat => .int (n : Int)) := by cases w <;> first | rfl | exact absurd rfl hw
  rw [this, orBad_map]
  constructor
  · rintro ⟨i, hi, rfl⟩; exact ⟨i, rfl, (unsigned_iff _ _ _ hs).1 hi⟩
  · rintro ⟨i, rfl, hi⟩; exact ⟨i, (unsigned_iff _ _ _ hs).2 hi, rfl⟩

/-- **C116 refuted** Every unsigned parameter of 16, 32 or 64 bits accepts negative numbers: the command is executed with another number, which is not refused as without Boost. -/
theorem C116_minus_refuted (L : Boost) (p : Platform) (w : Width) (hw : w ≠ .w8) (ds : Str) (hd : Digits ds) (h0 : 0 < value ds) (hv : value ds < w.card) :
    fromString L (.unsigned w) (b%'-' :: ds) = .ok (.int ((w.card - value ds : Nat) : Int)) ∧ ∀ v, FromString.fromString p (.unsigned w) (b%'-' :: ds) ≠ .ok v := by
  have : fromString L (.unsigned w) (b%'-' :: ds) = (orBad (unsigned w (b%'-' :: ds))).map (fun n : Nat => .int (n : Int)) := by cases w <;> first | rfl | exact absurd rfl hw
  refine ⟨?_, ?_⟩
  · rw [this, orBad_map]
    refine ⟨w.card - value ds, ?_, rfl⟩
    simp only [unsigned, if_true, (digits_iff w.card ds _).2 ⟨hd, rfl, hv⟩, Option.map_some, Option.some.injEq]
    exact Nat.mod_eq_of_lt (by omega)
  · intro v h
    obtain ⟨n, _, ⟨ds', h | h, hd', _⟩, _⟩ := (Props.C04_unsigned_exact p w _ v).1 h
    · subst h; exact not_digit_minus hd'
    · cases h

/-- **C116** A bool parameter accepts exactly the integer spellings of 1 and 0. -/
theorem C116_bool (L : Boost) (s : Str) (v : Value) : fromString L .bool s = .ok v ↔ (SpellsInt s 1 ∧ v = .bool true) ∨ (SpellsInt s 0 ∧ v = .bool false) := by
  show (orBad (bool s)).map Value.bool = _ ↔ _
  rw [orBad_map]
  constructor
  · rintro ⟨b, hb, rfl⟩
    rcases (bool_iff _ _).1 hb with ⟨h, rfl⟩ | ⟨h, rfl⟩
    · exact .inl ⟨h, rfl⟩
    · exact .inr ⟨h, rfl⟩
  · rintro (⟨h, rfl⟩ | ⟨h, rfl⟩)
    · exact ⟨true, (bool_iff _ _).2 (.inl ⟨h, rfl⟩), rfl⟩
    · exact ⟨false, (bool_iff _ _).2 (.inr ⟨h, rfl⟩), rfl⟩

/-- **C116 refuted** So `true` and `false` are refused, which are accepted without Boost. -/
theorem C116_true_refuted (L : Boost) (p : Platform) (b : Bool) : fromString L .bool (if b then bs!"true" else bs!"false") = .error .bad ∧
    FromString.fromString p .bool (if b then bs!"true" else bs!"false") = .ok (.bool b) := by
  cases b <;> exact ⟨rfl, rfl⟩

/-- **C116** Characters and strings are converted as without Boost. -/
theorem C116_text (L : Boost) (p : Platform) (s : Str) : fromString L .char s = FromString.fromString p .char s ∧ fromString L .string s = FromString.fromString p .string s := by
  refine ⟨?_, rfl⟩
  match s with
  | [] => rfl
  | [_] => rfl
  | _ :: _ :: _ => rfl

/-- **C116 refuted** The integral types of 8 bits are taken for characters: a digit is converted to its code, and a number with more digits (or with a sign) is refused. -/
theorem C116_small_refuted (L : Boost) (p : Platform) (w : ParamTy) (hw : w = .unsigned .w8 ∨ w = .signed .w8) :
    (∀ d, Digit d → fromString L w [d] = .ok (.int d.toNat) ∧ FromString.fromString p w [d] = .ok (.int (d.toNat - 48 : Nat))) ∧
    ∀ s : Str, s.length ≠ 1 → fromString L w s = .error .bad := by
  have hd : ∀ d, Digit d → Digits [d] := fun d h => ⟨by simp, by simpa using h⟩
  have hv : ∀ d : Byte, value [d] = d.toNat - 48 := fun d => by simp [value]
  have hr : ∀ d : Byte, Digit d → 48 ≤ d.toNat ∧ d.toNat ≤ 57 := fun d h => ⟨UInt8.le_iff_toNat_le.1 h.1, UInt8.le_iff_toNat_le.1 h.2⟩
  rcases hw with rfl | rfl
  · refine ⟨fun d h => ⟨rfl, (Props.C04_unsigned_exact p .w8 [d] _).2 ⟨d.toNat - 48, rfl, ⟨[d], .inl rfl, hd d h, hv d⟩, ?_⟩⟩, ?_⟩
    · have := hr d h; show _ < 256; omega
    · intro s hs
      match s, hs with
      | [], _ => rfl
      | [_], h => exact absurd rfl h
      | _ :: _ :: _, _ => rfl
  · refine ⟨fun d h => ⟨?_, (Props.C05_signed_exact_partial p .w8 [d] _ (.inr (.inl (.inl rfl)))).2 ⟨((d.toNat - 48 : Nat) : Int), rfl, ⟨[d], hd d h, .inl ⟨rfl, by rw [hv]⟩⟩, ?_, ?_⟩⟩, ?_⟩
    · have := hr d h
      have h1 : d.toNat % Width.w8.card = d.toNat := Nat.mod_eq_of_lt (by show _ < 256; omega)
      have h2 : d.toNat < Width.w8.card / 2 := by show _ < 128; omega
      simp only [fromString, char, orBad, Except.map, toSigned, h1, if_pos h2]
    · have := hr d h; show -((256 / 2 : Nat) : Int) ≤ _; omega
    · have := hr d h; show _ < ((256 / 2 : Nat) : Int); omega
    · intro s hs
      match s, hs with
      | [], _ => rfl
      | [_], h => exact absurd rfl h
      | _ :: _ :: _, _ => rfl

/-- **C116** An integral type of 8 bits accepts just the tokens of one byte; the value is that of the byte in that type: the number from 0 to 255, or the one from -128 to 127, that is the byte modulo 256. -/
theorem C116_byte (L : Boost) (s : Str) (v : Value) :
    (fromString L (.unsigned .w8) s = .ok v ↔ ∃ c : Byte, s = [c] ∧ v = .int c.toNat) ∧
    (fromString L (.signed .w8) s = .ok v ↔ ∃ (c : Byte) (i : Int), s = [c] ∧ v = .int i ∧ -128 ≤ i ∧ i < 128 ∧ i % 256 = c.toNat) := by
  have hs : ∀ c : Byte, -128 ≤ toSigned .w8 c.toNat ∧ toSigned .w8 c.toNat < 128 ∧ toSigned .w8 c.toNat % 256 = c.toNat := by
    intro c
    have hc : c.toNat < 256 := c.toNat_lt
    have h1 : c.toNat % Width.w8.card = c.toNat := Nat.mod_eq_of_lt hc
    simp only [toSigned, h1, show Width.w8.card = 256 from rfl]
    split <;> omega
  match s with
  | [] => simp [fromString, char, orBad, Except.map]
  | [c] =>
    simp only [fromString, char, orBad, Except.map, Except.ok.injEq, List.cons.injEq, and_true]
    refine ⟨⟨fun h => ⟨c, rfl, h.symm⟩, fun ⟨c', h1, h2⟩ => by rw [h1, h2]⟩, ⟨fun h => ⟨c, _, rfl, h.symm, hs c⟩, ?_⟩⟩
    rintro ⟨c', i, rfl, rfl, h1, h2, h3⟩
    have := hs c
    congr 1
    omega
  | _ :: _ :: _ => simp [fromString, char, orBad, Except.map]

/-- **C116** A type of the user accepts a token iff its `operator>>` extracts a value from it and nothing is left. -/
theorem C116_custom (L : Boost) (k : Nat) (s : Str) (v : Value) : fromString L (.custom k) s = .ok v ↔ ∃ x, L.extract k s = .ok (some (x, s.length)) ∧ v = .custom k x := by
  simp only [fromString]
  cases h : L.extract k s with
  | error e => simp
  | ok o =>
    cases o with
    | none => simp
    | some y =>
      obtain ⟨y, n⟩ := y
      by_cases hn : n = s.length
      · simp only [hn, if_true, Except.ok.injEq, Option.some.injEq, Prod.mk.injEq, and_true]
        exact ⟨fun h => ⟨y, rfl, h.symm⟩, fun ⟨x, h1, h2⟩ => by rw [h1, h2]⟩
      · simp [hn]

/-- **C116** No conversion has undefined behaviour, whatever the token and the type (compare C07, which is refuted); and none throws anything but a `bad_cast`, unless `operator>>` of a type of the user does. -/
theorem C116_defined (L : Boost) (ty : ParamTy) (s : Str) (e : ConvErr) (h : fromString L ty s = .error e) : e = .bad ∨ ∃ k x, ty = .custom k ∧ L.extract k s = .error x ∧ e = .exn x := by
  cases ty with
  | unsigned w =>
    cases w <;> exact .inl (orBad_map_error _ _ _ h)
  | signed w =>
    cases w <;> exact .inl (orBad_map_error _ _ _ h)
  | bool => exact .inl (orBad_map_error _ _ _ h)
  | char => exact .inl (orBad_map_error _ _ _ h)
  | string => cases h
  | float k => exact .inl (orBad_map_error _ _ _ h)
  | custom k =>
    simp only [fromString] at h
    split at h
    · rename_i x hx
      exact .inr ⟨k, x, rfl, hx, by injection h with h; exact h.symm⟩
    · split at h
      · cases h
      · exact .inl (by injection h with h; exact h.symm)
    · exact .inl (by injection h with h; exact h.symm)
  | null => exact .inl (by injection h with h; exact h.symm)

/-- The types and tokens that are converted alike. -/
def Alike : ParamTy → Str → Prop
  | .unsigned w, s => w ≠ .w8 ∧ s.head? ≠ some b%'-'
  | .signed w, _ => w ≠ .w8
  | .bool, s => s ≠ bs!"true" ∧ s ≠ bs!"false"
  | .char, _ => True
  | .string, _ => True
  | _, _ => False

/-- **C116** (partial) For integers of 16, 32 and 64 bits (unsigned ones if the token does not begin with a minus sign), bool (except for `true` and `false`), characters and strings: what is accepted without Boost is accepted with it, with the same
    value; what is accepted with it is accepted without it, with the same value, unless the conversion without Boost has undefined behaviour. Missing: the other types and tokens, see `C116_minus_refuted`, `C116_true_refuted`, `C116_small_refuted`. -/
theorem C116_same_partial (L : Boost) (p : Platform) (ty : ParamTy) (s : Str) (ha : Alike ty s) (v : Value) :
    (FromString.fromString p ty s = .ok v → fromString L ty s = .ok v) ∧
    (fromString L ty s = .ok v → FromString.fromString p ty s = .ok v ∨ ∃ u, FromString.fromString p ty s = .error (.ub u)) := by
  cases ty with
  | unsigned w =>
    have hall : ∀ v, FromString.fromString p (.unsigned w) s = .ok v ↔ fromString L (.unsigned w) s = .ok v := fun v => by
      rw [C116_unsigned_partial L w ha.1 s ha.2, Props.C04_unsigned_exact]
    exact ⟨(hall v).1, fun h => .inl ((hall v).2 h)⟩
  | signed w =>
    by_cases hp : p.strictOverflow = false ∨ (w = .w8 ∨ w = .w16) ∨ s.head? ≠ some b%'-'
    · have hall : ∀ v, FromString.fromString p (.signed w) s = .ok v ↔ fromString L (.signed w) s = .ok v := fun v => by
        rw [C116_signed L w ha s, Props.C05_signed_exact_partial p w s v hp]
      exact ⟨(hall v).1, fun h => .inl ((hall v).2 h)⟩
    · refine ⟨fun h => (C116_signed L w ha s v).2 (Props.C05_signed_sound p w s v h), fun h => ?_⟩
      obtain ⟨i, _, ⟨ds, hd, hc⟩, h1, h2⟩ := (C116_signed L w ha s v).1 h
      simp only [not_or, Bool.not_eq_false, ne_eq, Classical.not_not] at hp
      obtain ⟨ho, hw2, hh⟩ := hp
      have hww : w = .w32 ∨ w = .w64 := by cases w <;> simp_all
      rcases hc with ⟨rfl, _⟩ | ⟨rfl, _⟩ | ⟨rfl, hi⟩
      · match s, hh, hd with
        | c :: cs, hh, hd => cases hh; exact absurd hd not_digit_minus
      · cases hh
      · refine .inr ⟨_, Props.C05_refuted_strict_overflow p ho w hww ds hd ?_⟩
        rcases hww with rfl | rfl
        · have : -((4294967296 / 2 : Nat) : Int) ≤ i := h1
          show _ < 4294967296; omega
        · have : -((18446744073709551616 / 2 : Nat) : Int) ≤ i := h1
          show _ < 18446744073709551616; omega
  | bool =>
    by_cases hp : p.strictOverflow = false ∨ s.head? ≠ some b%'-'
    · have hall : ∀ v, FromString.fromString p .bool s = .ok v ↔ fromString L .bool s = .ok v := fun v => by
        rw [C116_bool, Props.C06_bool_partial p s v hp]
        constructor
        · rintro ⟨b, rfl, h | h | h | h⟩
          · exact absurd h.1 ha.1
          · exact absurd h.1 ha.2
          · exact .inl ⟨h.1, by rw [h.2]⟩
          · exact .inr ⟨h.1, by rw [h.2]⟩
        · rintro (⟨h, rfl⟩ | ⟨h, rfl⟩)
          · exact ⟨true, rfl, .inr (.inr (.inl ⟨h, rfl⟩))⟩
          · exact ⟨false, rfl, .inr (.inr (.inr ⟨h, rfl⟩))⟩
      exact ⟨(hall v).1, fun h => .inl ((hall v).2 h)⟩
    · simp only [not_or, Bool.not_eq_false, ne_eq, Classical.not_not] at hp
      obtain ⟨ho, hh⟩ := hp
      match s, hh with
      | c :: cs, hh =>
        obtain rfl : c = b%'-' := by simpa using hh
        have hb : FromString.fromString p .bool (b%'-' :: cs) = (signedFromString p .w64 (b%'-' :: cs) >>= fun value => if value = 1 then pure true else if value = 0 then pure false else throw .bad).map .bool := by
          have e1 : (b%'-' :: cs = bs!"true") = False := by simp
          have e2 : (b%'-' :: cs = bs!"false") = False := by simp
          simp only [FromString.fromString, boolFromString, e1, e2, if_false]
        refine ⟨fun h => ?_, fun h => ?_⟩
        · exfalso
          rw [hb] at h
          cases hs : signedFromString p .w64 (b%'-' :: cs) with
          | error e => rw [hs] at h; cases h
          | ok i =>
            have h2 : FromString.fromString p (.signed .w64) (b%'-' :: cs) = .ok (.int i) := by simp only [FromString.fromString, hs]; rfl
            obtain ⟨j, _, ⟨ds, hd, hc⟩, h3, _⟩ := Props.C05_signed_sound p .w64 _ _ h2
            rcases hc with ⟨h4, _⟩ | ⟨h4, _⟩ | ⟨h4, hj⟩
            · subst h4; exact not_digit_minus hd
            · cases h4
            · cases h4
              have h3 : -((18446744073709551616 / 2 : Nat) : Int) ≤ j := h3
              have := Props.C05_refuted_strict_overflow p ho .w64 (.inr rfl) cs hd (by show _ < 18446744073709551616; omega)
              rw [h2] at this; cases this
        · refine .inr ⟨.signedOverflow, ?_⟩
          have hz : Digits cs ∧ value cs < 18446744073709551616 := by
            rcases (C116_bool L _ v).1 h with ⟨⟨ds, hd, hc⟩, _⟩ | ⟨⟨ds, hd, hc⟩, _⟩ <;> rcases hc with ⟨h4, _⟩ | ⟨h4, _⟩ | ⟨h4, hj⟩
            all_goals first | (subst h4; exact absurd hd not_digit_minus) | (cases h4; exact ⟨hd, by omega⟩) | cases h4
          have := Props.C05_refuted_strict_overflow p ho .w64 (.inr rfl) cs hz.1 hz.2
          simp only [FromString.fromString] at this
          rw [hb]
          cases hs : signedFromString p .w64 (b%'-' :: cs) with
          | ok i => rw [hs] at this; cases this
          | error e => rw [hs] at this; simp only [Except.map, Except.error.injEq] at this; subst this; rfl
  | char =>
    rw [(C116_text L p s).1]
    exact ⟨id, .inl⟩
  | string => exact ⟨id, .inl⟩
  | float k => exact ha.elim
  | custom k => exact ha.elim
  | null => exact ha.elim

/-- A Boost without conversions of its own. -/
def boost0 : Boost := ⟨fun _ _ => none, fun _ s => .ok (if s.length < 3 then none else some (s.length, 3))⟩

example : fromString boost0 (.unsigned .w32) bs!"-1" = .ok (.int 4294967295) := by rfl
example : fromString boost0 (.signed .w32) bs!"-2147483648" = .ok (.int (-2147483648)) := by rfl
example : fromString boost0 (.signed .w16) bs!"+0032767" = .ok (.int 32767) := by rfl
example : fromString boost0 (.signed .w16) bs!"32768" = .error .bad := by rfl
example : fromString boost0 .bool bs!"-00" = .ok (.bool false) := by rfl
example : fromString boost0 .bool bs!"-1" = .error .bad := by rfl
example : fromString boost0 (.signed .w8) bs!"5" = .ok (.int 53) := by rfl
example : fromString boost0 (.custom 0) bs!"abc" = .ok (.custom 0 3) ∧ fromString boost0 (.custom 0) bs!"abcd" = .error .bad := ⟨rfl, rfl⟩
example : fromString boost0 (.signed .w8) [0xC3] = .ok (.int (-61)) ∧ fromString boost0 (.unsigned .w8) [0xC3] = .ok (.int 195) := ⟨rfl, rfl⟩
example : fromString boost0 (.signed .w32) [b%'1', 0xC3] = .error .bad ∧ FromString.fromString Props.plat (.signed .w32) [b%'1', 0xC3] = .error (.ub .ctype) := ⟨rfl, rfl⟩
example : Alike (.unsigned .w32) bs!"+7" ∧ FromString.fromString Props.plat (.unsigned .w32) bs!"+7" = .ok (.int 7) := ⟨⟨by decide, by decide⟩, rfl⟩

end Verif.Lexical
