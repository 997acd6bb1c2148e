import Verif.Model.Session
import Verif.Spec.Number
import Verif.Spec.Lex
import Verif.Spec.Walk

/-!
# Specification of the lines that designate built-in commands
-/

namespace Verif.Spec
open Number Verif

/-- The line designates a built-in command. -/
inductive GlobalLine : List Str → Builtin → Prop
  | help : GlobalLine [bs!"help"] .help
  | exit : GlobalLine [bs!"exit"] .exit
  | history : GlobalLine [bs!"history"] .history
  | bang {arg n} : SpellsNat arg n → n < 2 ^ 32 → GlobalLine [bs!"!", arg] (.bang n)

/-- A line that designates no built-in command (and does not make `isdigit` undefined in finding that out). -/
structure UserLine (p : Platform) (toks : List Str) : Prop where
  nonempty : toks ≠ []
  notGlobal : ∀ b, ¬ GlobalLine toks b
  ctype : ∀ arg, toks = [bs!"!", arg] → ∀ c ∈ arg, p.ctypeUB c = false

/-! ### Calls of handlers -/

/-- The calls of command handlers among the events, with their arguments. -/
def calls (evs : List Event) : List (Cmd × List FromString.Value) :=
  evs.filterMap fun | .ran c vals _ _ => some (c, vals) | _ => none

/-- The lines reported as wrong commands. -/
def wrongs (evs : List Event) : List Str :=
  evs.filterMap fun | .wrong l => some l | _ => none

/-- Nothing is disabled. -/
def allOn : Id → Bool := fun _ => false

/-- The line `l`, read in the current menu of the snapshot, designates the command, which is enabled; `vals` are its converted
    arguments. `dis` tells which menus count as disabled. -/
def RunsBy (p : Platform) (dis : Id → Bool) (l : Str) (c : Cmd) (vals : List FromString.Value) (s : Snap) : Prop :=
  ∃ toks args path, Lex.Line l toks ∧ s.tree.locate s.current = some path ∧ DesignatesCmd dis path toks c args ∧ s.dis c.id = false ∧
    Accepts p c args vals

end Verif.Spec
