import Verif.Proofs.Stumble
import Verif.Props.FromString

/-!
# Property C07, exactly: the tokens whose conversion is undefined; C06 for all spellings of minus zero
-/

set_option linter.unusedSimpArgs false

namespace Verif.Props
open FromString Number Spec

theorem map_error_iff {α β ε : Type} (f : α → β) (x : Except ε α) (e : ε) : x.map f = .error e ↔ x = .error e := by
  cases x <;> simp [Except.map]

/-- **C07** (refuted, exactly) A function of `<cctype>` is called with a forbidden byte (undefined behaviour) exactly for these tokens: for an unsigned parameter, digits of a value that the type can
    represent, possibly none, possibly after a `+`, and then such a byte, whatever follows; for a signed or bool parameter the same, with a `-` too (and the range of the unsigned type); for a floating
    point parameter, a token with such a byte and no white space before it. -/
theorem C07_ctype_exact (p : Platform) (s : Str) :
    (∀ w : Width, fromString p (.unsigned w) s = .error (.ub .ctype) ↔ ∃ t, (s = t ∨ s = b%'+' :: t) ∧ Stumbles p w.card t) ∧
    (∀ w : Width, fromString p (.signed w) s = .error (.ub .ctype) ↔ ∃ t, (s = t ∨ s = b%'+' :: t ∨ s = b%'-' :: t) ∧ Stumbles p w.card t) ∧
    (fromString p .bool s = .error (.ub .ctype) ↔ ∃ t, (s = t ∨ s = b%'+' :: t ∨ s = b%'-' :: t) ∧ Stumbles p (2 ^ 64) t) ∧
    (∀ k, fromString p (.float k) s = .error (.ub .ctype) ↔ StumblesUnspaced p s) := by
  refine ⟨fun w => ?_, fun w => ?_, ?_, fun k => ?_⟩
  · simp only [fromString, map_error_iff, unsigned_ub]
  · simp only [fromString, map_error_iff, signed_ub]
  · simp only [fromString, map_error_iff, bool_ub, signed_ub]
    rfl
  · simp only [fromString, map_error_iff, float_ub, anySpace_ub]

/-- **C07** (refuted, exactly) A signed overflow happens exactly where it is undefined, in an `int`, `long`, `long long` or bool parameter, and exactly for a minus sign followed by digits of a value that the unsigned type
    can represent: every negative number and every spelling of minus zero. -/
theorem C07_overflow_exact (p : Platform) (s : Str) :
    (∀ w : Width, fromString p (.signed w) s = .error (.ub .signedOverflow) ↔ p.strictOverflow = true ∧ (w = .w32 ∨ w = .w64) ∧ Negative w.card s) ∧
    (fromString p .bool s = .error (.ub .signedOverflow) ↔ p.strictOverflow = true ∧ Negative (2 ^ 64) s) := by
  have hn : ∀ w : Width, w.narrow = false ↔ w = .w32 ∨ w = .w64 := by intro w; cases w <;> simp [Width.narrow]
  refine ⟨fun w => ?_, ?_⟩
  · simp only [fromString, map_error_iff, signed_overflow_iff, hn]
  · simp only [fromString, map_error_iff, bool_ub, signed_overflow_iff, hn]
    simp only [or_true, true_and, reduceCtorEq]
    rfl

/-- **C07** (exactly) These are all: a conversion is undefined for one of the two reasons or not at all; and a char, a string, a null pointer and a type with its own extraction operator are never converted in an undefined way. -/
theorem C07_only (p : Platform) (ty : ParamTy) (s : Str) (u : UB) (h : fromString p ty s = .error (.ub u)) :
    (u = .ctype ∨ u = .signedOverflow) ∧ ty ≠ .char ∧ ty ≠ .string ∧ ty ≠ .null ∧ ∀ k, ty ≠ .custom k := by
  refine ⟨?_, ?_, ?_, ?_, ?_⟩
  · rcases C07_conversion_ub_partial p ty s u h with ⟨h, _⟩ | ⟨h, _⟩
    · exact .inl h
    · exact .inr h
  · rintro rfl
    simp only [fromString, map_error_iff] at h
    unfold charFromString at h
    split at h <;> cases h
  · rintro rfl; simp [fromString] at h
  · rintro rfl; simp [fromString] at h
  · rintro k rfl
    simp only [fromString, map_error_iff, customFromString] at h
    split at h
    · cases h
    · cases h
    · split at h <;> cases h

/-- **C06** (refuted, in general) Where signed overflow is undefined, no spelling of minus zero, and indeed no negative number of 64 bits, can be given to a bool parameter. -/
theorem C06_minus (p : Platform) (hp : p.strictOverflow = true) (ds : Str) (hd : Digits ds) (hv : value ds < 2 ^ 64) :
    fromString p .bool (b%'-' :: ds) = .error (.ub .signedOverflow) :=
  ((C07_overflow_exact p _).2).2 ⟨hp, ds, rfl, hd, hv⟩

example : fromString { plat with strictOverflow := true } .bool bs!"-000" = .error (.ub .signedOverflow) :=
  C06_minus _ rfl bs!"000" ⟨by decide, by unfold Digit; decide⟩ (by decide)

example : Stumbles plat 256 [b%'1', b%'2', 0xC3, b%'x'] :=
  ⟨[b%'1', b%'2'], 0xC3, [b%'x'], rfl, by unfold Digit; decide, by decide, by unfold Forbidden; decide⟩

/-- `300é` is simply refused for an `unsigned char`: the number is too large before the forbidden byte is reached. -/
example : fromString plat (.unsigned .w8) [b%'3', b%'0', b%'0', 0xC3, 0xA9] = .error .bad ∧
    fromString plat (.unsigned .w16) [b%'3', b%'0', b%'0', 0xC3, 0xA9] = .error (.ub .ctype) := ⟨by rfl, by rfl⟩

example : StumblesUnspaced plat [b%'1', b%'e', 0xC3] := ⟨[b%'1', b%'e'], 0xC3, [], rfl, by decide, by unfold Forbidden; decide⟩

end Verif.Props
