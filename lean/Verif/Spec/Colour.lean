import Verif.Basic

/-!
# Specification of coloured text

Text with colour codes (the SGR sequences of ECMA-48) in it.
-/

namespace Verif.Spec

/-- The colour codes used. -/
inductive Ink where
  | reset | bold | green | gray
  deriving DecidableEq, Repr

def Ink.code : Ink → Str
  | .reset => 27 :: bs!"[0m"
  | .bold => 27 :: bs!"[1m"
  | .green => 27 :: bs!"[32m"
  | .gray => 27 :: bs!"[97m"

/-- Text, or a code. -/
abbrev Piece := Str ⊕ Ink

/-- The bytes. -/
def painted (ps : List Piece) : Str := ps.flatMap (Sum.elim id Ink.code)

/-- The text alone. -/
def textOf (ps : List Piece) : Str := ps.flatMap (Sum.elim id (fun _ => []))

/-- Nothing is in colour at the end: the last code, if any, is the one for reset. -/
def Calm (ps : List Piece) : Prop := ∀ i ∈ (ps.filterMap Sum.getRight?).getLast?, i = .reset

end Verif.Spec
