import Verif.Basic

/-! # Decimal numbers (independent specification) -/

namespace Verif.Number

/-- A decimal digit. -/
def Digit (c : Byte) : Prop := b%'0' ≤ c ∧ c ≤ b%'9'

/-- Positional value of a string of decimal digits. -/
def value : Str → Nat
  | [] => 0
  | c :: cs => (c.toNat - 48) * 10 ^ cs.length + value cs

/-- `s` is a non-empty string of digits. -/
def Digits (s : Str) : Prop := s ≠ [] ∧ ∀ c ∈ s, Digit c

/-- `s` spells the natural number `n`: optional `+`, then digits. -/
def SpellsNat (s : Str) (n : Nat) : Prop :=
  ∃ ds, (s = ds ∨ s = b%'+' :: ds) ∧ Digits ds ∧ value ds = n

/-- `s` spells the integer `i`: optional sign, then digits. -/
def SpellsInt (s : Str) (i : Int) : Prop :=
  ∃ ds, Digits ds ∧ ((s = ds ∧ i = value ds) ∨ (s = b%'+' :: ds ∧ i = value ds) ∨ (s = b%'-' :: ds ∧ i = -(value ds : Int)))

end Verif.Number
