import Verif.Basic

/-!
# Specification: a text made of two others
-/

namespace Verif.Spec
open Verif

/-- The third text consists of the pieces of the first and those of the second, each in order. -/
inductive Weave : Str → Str → Str → Prop
  | nil : Weave [] [] []
  | left {a b c} : Weave a b c → ∀ s, Weave (a ++ s) b (c ++ s)
  | right {a b c} : Weave a b c → ∀ s, Weave a (b ++ s) (c ++ s)

/-- The third text is the first with the others at some places of it: each whole, in order. -/
inductive Between : Str → List Str → Str → Prop
  | nil : Between [] [] []
  | same {a ts c} : Between a ts c → ∀ s, Between (a ++ s) ts (c ++ s)
  | text {a ts c} : Between a ts c → ∀ t, Between a (ts ++ [t]) (c ++ t)

theorem Between.weave {a c : Str} {ts : List Str} (h : Between a ts c) : Weave a ts.flatten c := by
  induction h with
  | nil => exact .nil
  | same _ s ih => exact ih.left s
  | text _ t ih => simpa using ih.right t

end Verif.Spec
