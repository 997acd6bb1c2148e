import Verif.Spec.Lex
import Verif.Spec.Number
import Verif.Spec.Lines
import Verif.Spec.Help

/-!
# What the programs `filesession` and `simplelocalsession` should write (C108)
-/

namespace Verif.Script
open Spec

/-- The text shows the number: it spells it, and there is no shorter way to do it. -/
def Shows (s : Str) (x : Int) : Prop := Number.SpellsInt s x ∧ ∀ t, Number.SpellsInt t x → s.length ≤ t.length

/-- The menus. -/
inductive Place where
  | root | sub | subsub
  deriving DecidableEq, Repr

def Place.name : Place → Str
  | .root => bs!"cli" | .sub => bs!"sub" | .subsub => bs!"subsub"

/-- What a command does. -/
inductive Reply where
  | says (text : Str)
  | colour (on : Bool)
  | goes (p : Place)

/-- The table of the commands. A line can begin with the name of a menu below, or with that of the menu above or `..`; the rest is then understood as if it had been typed there. -/
inductive Does : Place → List Str → Reply → Prop
  | hello : Does .root [bs!"hello"] (.says bs!"Hello, world\n")
  | everybody : Does .root [bs!"hello_everysession"] (.says bs!"Hello, everybody\n")
  | answer {s t i} : Number.SpellsInt s i → -2 ^ 31 ≤ i → i < 2 ^ 31 → Shows t i → Does .root [bs!"answer", s] (.says (bs!"The answer is: " ++ t ++ bs!"\n"))
  | color : Does .root [bs!"color"] (.colour true)
  | nocolor : Does .root [bs!"nocolor"] (.colour false)
  | helloSub : Does .sub [bs!"hello"] (.says bs!"Hello, submenu world\n")
  | demo : Does .sub [bs!"demo"] (.says bs!"This is a sample!\n")
  | helloSubsub : Does .subsub [bs!"hello"] (.says bs!"Hello, subsubmenu world\n")
  | down {a b} : (a, b) ∈ [(Place.root, Place.sub), (.sub, .subsub)] → Does a [b.name] (.goes b)
  | inside {a b rest r} : (a, b) ∈ [(Place.root, Place.sub), (.sub, .subsub)] → Does b rest r → Does a (b.name :: rest) r
  | up {a b t} : (a, b) ∈ [(Place.root, Place.sub), (.sub, .subsub)] → t = a.name ∨ t = bs!".." → Does b [t] (.goes a)
  | outside {a b t rest r} : (a, b) ∈ [(Place.root, Place.sub), (.sub, .subsub)] → t = a.name ∨ t = bs!".." → Does a rest r → Does b (t :: rest) r

/-- What `help` lists in a menu, after the commands that there are everywhere. -/
def Place.offers : Place → List HelpItem
  | .root => [⟨bs!"hello", [], bs!"Print hello world"⟩, ⟨bs!"hello_everysession", [], bs!"Print hello everybody on all open sessions"⟩,
      ⟨bs!"answer", [bs!"<int>"], bs!"Print the answer to Life, the Universe and Everything "⟩, ⟨bs!"color", [], bs!"Enable colors in the cli"⟩, ⟨bs!"nocolor", [], bs!"Disable colors in the cli"⟩, ⟨bs!"sub", [], bs!"(menu)"⟩]
  | .sub => [⟨bs!"hello", [], bs!"Print hello world in the submenu"⟩, ⟨bs!"demo", [], bs!"Print a demo string"⟩, ⟨bs!"subsub", [], bs!"(menu)"⟩, ⟨bs!"cli", [], bs!"(menu)"⟩]
  | .subsub => [⟨bs!"hello", [], bs!"Print hello world in the sub-submenu"⟩, ⟨bs!"sub", [], bs!"(menu)"⟩]

/-- What the output of the next line depends on. -/
structure Seat where
  place : Place
  /-- colours are switched on -/
  colour : Bool
  /-- escape sequences are written, as the output is a terminal or a coloured prompt has been written before -/
  escapes : Bool
  /-- the line that `history` shows, with its number -/
  last : Option Str
  number : Nat
  deriving DecidableEq, Repr

def Seat.start (tty : Bool) : Seat := ⟨.root, false, tty, none, 0⟩

/-- A line is recorded: it takes the place of the previous one, unless it is the same. -/
def Seat.record (s : Seat) (line : Str) : Seat :=
  match s.last with
  | none => { s with last := some line }
  | some l => if l = line then s else { s with last := some line, number := s.number + 1 }

/-- The prompt: the name of the menu in bold green, if colours are on; what comes after the name resets the colours. -/
def Seat.prompt (s : Seat) : Str :=
  (if s.colour then bs!"\x1b[32m\x1b[1m" else []) ++ s.place.name ++ (if s.colour || s.escapes then bs!"\x1b[0m" else []) ++ bs!"> "

/-- From then on escape sequences are written. -/
def Seat.prompted (s : Seat) : Seat := { s with escapes := s.colour || s.escapes }

def Seat.apply (s : Seat) : Reply → Seat
  | .says _ => s
  | .colour on => { s with colour := on }
  | .goes p => { s with place := p }

def Reply.text : Reply → Str
  | .says t => t
  | .colour true => bs!"Colors ON\n"
  | .colour false => bs!"Colors OFF\n"
  | .goes _ => []

/-- The line is `!` and a number. -/
def Bang (line : Str) : Prop := ∃ a n, Lex.Line line [bs!"!", a] ∧ Number.SpellsNat a n ∧ n < 2 ^ 32

/-- What a line other than `exit` does and writes. -/
inductive Line (s : Seat) (line : Str) : Seat → Str → Prop
  | blank : Lex.Line line [] → Line s line s []
  | help : Lex.Line line [bs!"help"] → Line s line (s.record line) (bs!"Commands available:\n" ++ (globalItems ++ s.place.offers).flatMap HelpItem.text)
  | history {d} : Lex.Line line [bs!"history"] → Shows d (s.record line).number → Line s line (s.record line) (bs!"\n" ++ d ++ bs!"\t" ++ line ++ bs!"\n\n")
  /-- there is nothing before this line in the history -/
  | missing : Bang line → Line s line { s.record line with last := none } bs!"Index not found in history\n"
  | does {toks r} : Lex.Line line toks → Does s.place toks r → Line s line ((s.record line).apply r) r.text
  | wrong {toks} : Lex.Line line toks → toks ∉ [[], [bs!"help"], [bs!"history"], [bs!"exit"]] → ¬ Bang line → (∀ r, ¬ Does s.place toks r) →
      Line s line (s.record line) (bs!"wrong command: " ++ line ++ bs!"\n")

def goodbye : Str := bs!"Goodbye and thanks for all the fish.\n"

/-- What is written when these are the lines. -/
inductive Output : Seat → List Str → Str → Prop
  | eof {s} : Output s [] (s.prompt ++ goodbye)
  | exit {s l ls} : Lex.Line l [bs!"exit"] → Output s (l :: ls) (s.prompt ++ goodbye)
  | line {s s' l ls t o} : ¬ Lex.Line l [bs!"exit"] → Line s.prompted l s' t → Output s' ls o → Output s (l :: ls) (s.prompt ++ t ++ o)

/-- The first of the lines that is not blank is `!` and a number. -/
def Doomed (ls : List Str) : Prop := ∃ blanks l rest, ls = blanks ++ l :: rest ∧ (∀ b ∈ blanks, Lex.Line b []) ∧ Bang l

end Verif.Script
