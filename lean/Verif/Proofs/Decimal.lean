import Verif.Basic

/-! # Lemmas about `decimal` -/

namespace Verif

theorem isDigit_ofNat (k : Nat) (h : k < 10) : isDigit (UInt8.ofNat (48 + k)) = true := by
  simp only [isDigit, UInt8.toNat_ofNat']
  rw [Nat.mod_eq_of_lt (by omega)]
  simp; omega

theorem decimal_digits (n : Nat) : ∀ d ∈ decimal n, isDigit d = true := by
  induction n using Nat.strongRecOn with
  | ind n ih =>
    unfold decimal
    split
    · rename_i h
      intro d hd
      simp only [List.mem_singleton] at hd
      subst hd
      exact isDigit_ofNat n h
    · intro d hd
      simp only [List.mem_append, List.mem_singleton] at hd
      rcases hd with hd | rfl
      · exact ih (n / 10) (by omega) d hd
      · exact isDigit_ofNat _ (Nat.mod_lt _ (by omega))

end Verif
