import Verif.Spec.Global

/-!
# Lines that re-execute an entry of the history
-/

namespace Verif.Spec

/-- The line is `! n` for a number. -/
def BangLine (line : Str) : Prop := ∃ toks n, Lex.Line line toks ∧ GlobalLine toks (.bang n)

end Verif.Spec
