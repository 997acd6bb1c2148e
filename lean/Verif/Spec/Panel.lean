import Verif.Spec.Lex
import Verif.Spec.Number
import Verif.Spec.Help

/-!
# What the commands of the examples with their own `io_context` should do (C128)
-/

namespace Verif.Hosted
open Spec

/-- What the answer to the next line depends on. -/
structure Panel where
  /-- the command `color` is enabled -/
  color : Bool
  /-- the command `nocolor` is enabled -/
  nocolor : Bool
  /-- colours are switched on -/
  on : Bool
  /-- the session has been left -/
  left : Bool
  deriving DecidableEq, Repr

/-- At first both commands are enabled, and there are no colours. -/
def Panel.start : Panel := ⟨true, true, false, false⟩

/-- What `help` lists, after the commands that there are everywhere. -/
def Panel.offers (k : Panel) : List HelpItem :=
  [⟨bs!"hello", [], bs!"Print hello world"⟩] ++ (if k.color then [⟨bs!"color", [], bs!"Enable colors in the cli"⟩] else []) ++ (if k.nocolor then [⟨bs!"nocolor", [], bs!"Disable colors in the cli"⟩] else [])

/-- What the command that the words name does to the panel and what it writes; `history` and `!` are not among these commands. -/
inductive Panel.Does (k : Panel) : List Str → Panel → Str → Prop
  | hello : Does k [bs!"hello"] k bs!"Hello, world\n"
  | color : k.color = true → Does k [bs!"color"] { k with color := false, nocolor := true, on := true } bs!"Colors ON\n"
  | nocolor : k.nocolor = true → Does k [bs!"nocolor"] { k with color := true, nocolor := false, on := false } bs!"Colors OFF\n"
  | help : Does k [bs!"help"] k (bs!"Commands available:\n" ++ (globalItems ++ k.offers).flatMap HelpItem.text)
  | exit : Does k [bs!"exit"] { k with left := true } bs!"Closing App...\nGoodbye and thanks for all the fish.\n"

/-- The words are about the history: `history`, or `!` and a number. -/
def Recalls (toks : List Str) : Prop := toks = [bs!"history"] ∨ ∃ a n, toks = [bs!"!", a] ∧ Number.SpellsNat a n ∧ n < 2 ^ 32

/-- What comes after `!` can be read: no byte for which `isdigit` is undefined (C04). -/
def Clear (p : Platform) (toks : List Str) : Prop := ∀ a, toks = [bs!"!", a] → ∀ c ∈ a, p.ctypeUB c = false

/-- The answer to a line that is not about the history. -/
inductive Panel.Answer (k : Panel) (line : Str) : Panel → Str → Prop
  | blank : Lex.Line line [] → Answer k line k []
  | does {toks k' t} : Lex.Line line toks → k.Does toks k' t → Answer k line k' t
  | wrong {toks} : Lex.Line line toks → toks ≠ [] → ¬ Recalls toks → (∀ k' t, ¬ k.Does toks k' t) → Answer k line k (bs!"wrong command: " ++ line ++ bs!"\n")

/-- The answers to lines, one after the other. -/
inductive Panel.Answers : Panel → List Str → Panel → List Str → Prop
  | nil {k} : Answers k [] k []
  | cons {k k1 k2 l ls t ts} : k.Answer l k1 t → Answers k1 ls k2 ts → Answers k (l :: ls) k2 (t :: ts)

end Verif.Hosted
