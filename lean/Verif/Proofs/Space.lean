import Verif.Spec.Space

/-! # White space -/

namespace Verif

theorem isSpace_eq (c : Byte) : isSpace c = Spec.blank c := by
  rw [Bool.eq_iff_iff]
  simp only [isSpace, Spec.blank, List.contains_iff_mem, List.mem_cons, List.not_mem_nil, or_false, Bool.or_eq_true, beq_iff_eq, Bool.and_eq_true, decide_eq_true_eq,
    ← UInt8.toNat_inj]
  simp only [show (b%'\t').toNat = 9 from rfl, show (b%'\n').toNat = 10 from rfl, show (b%'\r').toNat = 13 from rfl,
    show (11 : UInt8).toNat = 11 from rfl, show (12 : UInt8).toNat = 12 from rfl, show (32 : UInt8).toNat = 32 from rfl]
  omega

theorem isSpace_fun : isSpace = Spec.blank := funext isSpace_eq

end Verif
