import Verif.Basic

/-!
# Specification of the lines of a text
-/

namespace Verif.Spec

/-- The text consists of these lines, each ended by a newline, and a rest without newline. -/
structure Lines (d : Str) (ls : List Str) (rest : Str) : Prop where
  text : d = ls.flatMap (fun l => l ++ [b%'\n']) ++ rest
  lines : ∀ l ∈ ls, b%'\n' ∉ l
  rest : b%'\n' ∉ rest

end Verif.Spec
