import Verif.Spec.Number
import Verif.Spec.Space

/-! # Tokens whose conversion has no defined meaning (independent specification) -/

namespace Verif.Spec
open Number

/-- A byte that is a negative `char` other than `EOF`: the functions of `<cctype>` must not be called with it. -/
def Forbidden (p : Platform) (c : Byte) : Prop := p.charSigned = true ∧ 128 ≤ c.toNat ∧ c.toNat ≤ 254

/-- Digits only, of a value below `bound`, and then a byte that is a negative `char`, followed by anything. -/
def Stumbles (p : Platform) (bound : Nat) (t : Str) : Prop :=
  ∃ ds c rest, t = ds ++ c :: rest ∧ (∀ d ∈ ds, Digit d) ∧ value ds < bound ∧ Forbidden p c

/-- A minus sign and then a number below `bound`. -/
def Negative (bound : Nat) (s : Str) : Prop := ∃ ds, s = b%'-' :: ds ∧ Digits ds ∧ value ds < bound

/-- A byte that is a negative `char`, with nothing blank before it. -/
def StumblesUnspaced (p : Platform) (s : Str) : Prop :=
  ∃ front c rest, s = front ++ c :: rest ∧ (∀ d ∈ front, blank d = false) ∧ Forbidden p c

end Verif.Spec
