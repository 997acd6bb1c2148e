import Verif.Model.Showcase
import Verif.Spec.Lex
import Verif.Spec.Number
import Verif.Spec.Help
import Verif.Spec.Space
import Verif.Spec.HistoryList

/-!
# What the commands of the program `complete` should do (C113)
-/

namespace Verif.Showcase
open Spec

/-- The text shows the number: it spells it, and there is no shorter way to do it. -/
def Shows (s : Str) (x : Int) : Prop := Number.SpellsInt s x ∧ ∀ t, Number.SpellsInt t x → s.length ≤ t.length

/-- The number is one of the type `int`. -/
def Small (i : Int) : Prop := -2 ^ 31 ≤ i ∧ i < 2 ^ 31

/-- The argument is a number of the type `int`. -/
def IsInt (a : Str) (i : Int) : Prop := Number.SpellsInt a i ∧ Small i

/-- The argument is a value of a type with an `operator>>`: this accepts it, and leaves nothing but blanks. -/
def IsValue (E : Env) (k : Nat) (a : Str) (v : Nat) : Prop := ∃ n, E.p.extract k a = .ok (some (v, n)) ∧ ∀ c ∈ a.drop n, blank c = true

/-- In a dictionary the first word comes before the second one, or they are the same. -/
def Dictionary (s t : Str) : Prop := s <+: t ∨ ∃ p x y q r, s = p ++ x :: q ∧ t = p ++ y :: r ∧ x < y

/-- The menus. -/
inductive Place where
  | root | sub | subsub
  deriving DecidableEq, Repr

def Place.name : Place → Str
  | .root => bs!"cli" | .sub => bs!"sub" | .subsub => bs!"subsub"

/-- The commands entered of late, oldest first, with the number of the first of them. There is room for some only. And the number of those entered in this session. -/
structure Book where
  room : Nat
  first : Nat
  entries : List Str
  entered : Nat
  deriving DecidableEq, Repr

/-- With what was entered in earlier sessions. -/
def Book.open (room : Nat) (stored : List Str) : Book := ⟨room, stored.length - room, lastN room stored, 0⟩

/-- The commands with their numbers. -/
def Book.listing (b : Book) : List (Nat × Str) := HistoryList.number b.first b.entries

/-- A line is recorded, unless it repeats the latest. The oldest makes room for it. -/
def Book.record (b : Book) (line : Str) : Book :=
  if b.entries.getLast? = some line then { b with entered := b.entered + 1 }
  else if b.entries.length < b.room then { b with entries := b.entries ++ [line], entered := b.entered + 1 }
  else { b with first := b.first + 1, entries := (b.entries ++ [line]).drop 1, entered := b.entered + 1 }

/-- The latest is deleted. -/
def Book.forget (b : Book) : Book := { b with entries := b.entries.dropLast }

/-- What is saved at the end of a session: the latest entries, as many as lines have been entered in it, also if some of these have not been recorded. -/
def Book.saved (b : Book) : List Str := lastN b.entered b.entries

/-- What the commands and the prompt depend on. -/
structure Seat where
  place : Place
  /-- colours are switched on -/
  colour : Bool
  /-- the commands `color` and `nocolor` have been removed -/
  gone : Bool
  /-- escape sequences are written, as the output is a terminal or a coloured prompt has been written before -/
  escapes : Bool
  book : Book
  deriving DecidableEq, Repr

/-- What a command does. -/
inductive Reply where
  | says (text : Str)
  /-- it says this to all sessions -/
  | announces (text : Str)
  /-- it throws an exception with this text -/
  | throws (what : Str)
  /-- a sum is too large -/
  | undefined
  | colour (on : Bool)
  | removes
  | goes (p : Place)

/-- A command without parameters. -/
def plain (r : Reply) (args : List Str) (x : Reply) : Prop := args = [] ∧ x = r

/-- A command with a number. -/
def numeric (f : Str → Str) (args : List Str) (x : Reply) : Prop := ∃ a i d, args = [a] ∧ IsInt a i ∧ Shows d i ∧ x = .says (f d ++ bs!"\n")

/-- What the sum of two numbers is announced as. -/
def sum2 (args : List Str) (x : Reply) : Prop :=
  ∃ a b i j, args = [a, b] ∧ IsInt a i ∧ IsInt b j ∧
    ((Small (i + j) ∧ ∃ d e s, Shows d i ∧ Shows e j ∧ Shows s (i + j) ∧ x = .says (d ++ bs!" + " ++ e ++ bs!" = " ++ s ++ bs!"\n")) ∨ (¬ Small (i + j) ∧ x = .undefined))

/-- … of three numbers: the sum of the first two must not be too large either. -/
def sum3 (args : List Str) (x : Reply) : Prop :=
  ∃ a b c i j k, args = [a, b, c] ∧ IsInt a i ∧ IsInt b j ∧ IsInt c k ∧
    ((Small (i + j) ∧ Small (i + j + k) ∧ ∃ d e f s, Shows d i ∧ Shows e j ∧ Shows f k ∧ Shows s (i + j + k) ∧ x = .says (d ++ bs!" + " ++ e ++ bs!" + " ++ f ++ bs!" = " ++ s ++ bs!"\n")) ∨
      (¬ (Small (i + j) ∧ Small (i + j + k)) ∧ x = .undefined))

/-- The words in the order of a dictionary. -/
def sort (args : List Str) (x : Reply) : Prop := ∃ l : List Str, l.Perm args ∧ l.Pairwise Dictionary ∧ x = .says (bs!"sorted list: " ++ l.flatMap (· ++ bs!" ") ++ bs!"\n")

/-- The table of the commands: the name, and what the command does with its arguments. -/
def rows (E : Env) (s : Seat) : Place → List (Str × (List Str → Reply → Prop))
  | .root =>
    [(bs!"free_function", numeric id),
     (bs!"hello", plain (.says bs!"Hello, world\n")),
     (bs!"hello_everysession", plain (.announces bs!"Hello, everybody\n")),
     (bs!"answer", numeric (bs!"The answer is: " ++ ·)),
     (bs!"file", numeric (bs!"file descriptor: " ++ ·)),
     (bs!"echo", fun args x => ∃ a, args = [a] ∧ x = .says (a ++ bs!"\n")),
     (bs!"echo", fun args x => ∃ a b, args = [a, b] ∧ x = .says (a ++ bs!" " ++ b ++ bs!"\n")),
     (bs!"error", plain (.throws bs!"Error in cmd")),
     (bs!"reverse", fun args x => ∃ a, args = [a] ∧ x = .says (a.reverse ++ bs!"\n")),
     (bs!"add", sum2),
     (bs!"add", sum3),
     (bs!"sort", sort),
     (bs!"bar", fun args x => ∃ a v, args = [a] ∧ IsValue E 0 a v ∧ x = .says (bs!"You entered bar: " ++ E.bar v ++ bs!"\n")),
     (bs!"complex", fun args x => ∃ a v, args = [a] ∧ IsValue E 1 a v ∧ x = .says (bs!"You entered complex : " ++ E.complex v ++ bs!"\n")),
     (bs!"color", fun args x => s.gone = false ∧ s.colour = false ∧ plain (.colour true) args x),
     (bs!"nocolor", fun args x => s.gone = false ∧ s.colour = true ∧ plain (.colour false) args x),
     (bs!"removecmds", plain .removes)]
  | .sub => [(bs!"hello", plain (.says bs!"Hello, submenu world\n")), (bs!"demo", plain (.says bs!"This is a sample!\n"))]
  | .subsub => [(bs!"hello", plain (.says bs!"Hello, subsubmenu world\n"))]

/-- Which menu contains which. -/
def Above (a b : Place) : Prop := (a = .root ∧ b = .sub) ∨ (a = .sub ∧ b = .subsub)

/-- What a line does. It can begin with the name of a menu below, or with that of the menu above or `..`; the rest is then understood as if it had been typed there. -/
inductive Does (E : Env) (s : Seat) : Place → List Str → Reply → Prop
  | here {pl name does args r} : (name, does) ∈ rows E s pl → does args r → Does E s pl (name :: args) r
  | down {a b} : Above a b → Does E s a [b.name] (.goes b)
  | inside {a b rest r} : Above a b → Does E s b rest r → Does E s a (b.name :: rest) r
  | up {a b t} : Above a b → t = a.name ∨ t = bs!".." → Does E s b [t] (.goes a)
  | outside {a b t rest r} : Above a b → t = a.name ∨ t = bs!".." → Does E s a rest r → Does E s b (t :: rest) r

/-- What `help` lists, after the commands that there are everywhere. -/
def Seat.offers (s : Seat) : List HelpItem :=
  match s.place with
  | .root =>
    [⟨bs!"free_function", [bs!"<int>"], bs!"Call a free function that echoes the parameter passed"⟩, ⟨bs!"hello", [], bs!"Print hello world"⟩, ⟨bs!"hello_everysession", [], bs!"Print hello everybody on all open sessions"⟩,
     ⟨bs!"answer", [bs!"<int>"], bs!"Print the answer to Life, the Universe and Everything"⟩, ⟨bs!"file", [bs!"<file_descriptor>"], bs!"Print the file descriptor specified"⟩,
     ⟨bs!"echo", [bs!"<string to echo>"], bs!"Print the string passed as parameter"⟩, ⟨bs!"echo", [bs!"<first string to echo>", bs!"<second string to echo>"], bs!"Print the strings passed as parameter"⟩,
     ⟨bs!"error", [], bs!"Throw an exception in the command handler"⟩, ⟨bs!"reverse", [bs!"<string_to_revert>"], bs!"Print the reverse string"⟩, ⟨bs!"add", [bs!"<first_term>", bs!"<second_term>"], bs!"Print the sum of the two numbers"⟩,
     ⟨bs!"add", [bs!"<int>", bs!"<int>", bs!"<int>"], bs!"Print the sum of the three numbers"⟩, ⟨bs!"sort", [bs!"<list of strings separated by space>"], bs!"Alphabetically sort a list of words"⟩,
     ⟨bs!"bar", [bs!"<bar>"], bs!"Custom type"⟩, ⟨bs!"complex", [bs!"<complex>"], bs!"Print a complex number"⟩] ++
    (if s.gone then [] else if s.colour then [⟨bs!"nocolor", [], bs!"Disable colors in the cli"⟩] else [⟨bs!"color", [], bs!"Enable colors in the cli"⟩]) ++
    [⟨bs!"removecmds", [], bs!"Remove both color and nocolor commands from the menu"⟩, ⟨bs!"sub", [], bs!"Enter a submenu"⟩]
  | .sub => [⟨bs!"hello", [], bs!"Print hello world in the submenu"⟩, ⟨bs!"demo", [], bs!"Print a demo string"⟩, ⟨bs!"subsub", [], bs!"Enter a submenu of second level"⟩, ⟨bs!"cli", [], bs!"(menu)"⟩]
  | .subsub => [⟨bs!"hello", [], bs!"Print hello world in the sub-submenu"⟩, ⟨bs!"sub", [], bs!"Enter a submenu"⟩]

def Seat.start (tty : Bool) (book : Book) : Seat := ⟨.root, false, false, tty, book⟩

def Seat.recorded (s : Seat) (line : Str) : Seat := { s with book := s.book.record line }

/-- Recorded, and deleted again. -/
def Seat.skipped (s : Seat) (line : Str) : Seat := { s with book := (s.book.record line).forget }

/-- What the prompt calls the menu. -/
def Place.prompt : Place → Str
  | .root => bs!"cli" | .sub => bs!"submenu" | .subsub => bs!"subsub"

/-- The prompt: in bold green, if colours are on; what comes after the name resets the colours. -/
def Seat.prompt (s : Seat) : Str :=
  (if s.colour then bs!"\x1b[32m\x1b[1m" else []) ++ s.place.prompt ++ (if s.colour || s.escapes then bs!"\x1b[0m" else []) ++ bs!"> "

/-- From then on escape sequences are written. -/
def Seat.prompted (s : Seat) : Seat := { s with escapes := s.colour || s.escapes }

def Seat.apply (s : Seat) : Reply → Seat
  | .colour on => { s with colour := on }
  | .removes => { s with gone := true }
  | .goes p => { s with place := p }
  | _ => s

/-- What is written; `line` is the line typed. -/
def Reply.text (line : Str) : Reply → Str
  | .says t => t
  | .announces t => t
  | .throws what => bs!"Exception caught in CLI handler: " ++ what ++ bs!" while handling command: " ++ line ++ bs!".\n"
  | .colour true => bs!"Colors ON\n"
  | .colour false => bs!"Colors OFF\n"
  | _ => []

/-- The line is `!` and this number. -/
def Recalls (line : Str) (n : Nat) : Prop := ∃ a, Lex.Line line [bs!"!", a] ∧ Number.SpellsNat a n ∧ n < 2 ^ 32

/-- The line is `!` and a number. -/
def Bang (line : Str) : Prop := ∃ n, Recalls line n

/-- The line refers to the history. -/
def Looks (line : Str) : Prop := Lex.Line line [bs!"history"] ∨ Bang line

/-- What a line other than these and `exit` does and writes, after it has been recorded. -/
inductive Line (E : Env) (s : Seat) (line : Str) : Seat → Str → Prop
  | help : Lex.Line line [bs!"help"] → Line E s line s (bs!"Commands available:\n" ++ (globalItems ++ s.offers).flatMap HelpItem.text)
  | does {toks r} : Lex.Line line toks → Does E s s.place toks r → r ≠ .undefined → Line E s line (s.apply r) (r.text line)
  | wrong {toks} : Lex.Line line toks → toks ∉ [[], [bs!"help"], [bs!"history"], [bs!"exit"]] → ¬ Bang line → (∀ r, ¬ Does E s s.place toks r) →
      Line E s line s (bs!"Unknown command or incorrect parameters: " ++ line ++ bs!".\n")

/-- What a line other than `exit` does and writes. -/
inductive Answer (E : Env) : Seat → Str → Seat → Str → Prop
  | blank {s line} : Lex.Line line [] → Answer E s line s []
  | line {s line s' t} : Line E (s.recorded line) line s' t → Answer E s line s' t
  | history {s line} : Lex.Line line [bs!"history"] → Answer E s line (s.recorded line) (HistoryList.render (s.recorded line).book.listing)
  /-- the line with this number is executed, in place of this one -/
  | again {s line n c s' t} : Recalls line n → (n, c) ∈ (s.skipped line).book.listing → Answer E (s.skipped line) c s' t → Answer E s line s' t
  | unknown {s line n} : Recalls line n → (∀ c, (n, c) ∉ (s.skipped line).book.listing) → Answer E s line (s.skipped line) (Reply.text line (.throws bs!"Index not found in history"))

/-- The line makes a command say this to all sessions. -/
inductive Announces (E : Env) : Seat → Str → Str → Prop
  | here {s line toks t} : Lex.Line line toks → Does E (s.recorded line) s.place toks (.announces t) → Announces E s line t
  | again {s line n c t} : Recalls line n → (n, c) ∈ (s.skipped line).book.listing → Announces E (s.skipped line) c t → Announces E s line t

/-- The line ends the session. -/
inductive Quits : Seat → Str → Prop
  | exit {s line} : Lex.Line line [bs!"exit"] → Quits s line
  | again {s line n c} : Recalls line n → (n, c) ∈ (s.skipped line).book.listing → Quits (s.skipped line) c → Quits s line

/-- The line ends the session, and these lines are saved. -/
inductive Saves : Seat → Str → List Str → Prop
  | exit {s line} : Lex.Line line [bs!"exit"] → Saves s line (s.recorded line).book.saved
  | again {s line n c cmds} : Recalls line n → (n, c) ∈ (s.skipped line).book.listing → Saves (s.skipped line) c cmds → Saves s line cmds

/-- The line asks for a sum that is too large. -/
def Overflows (E : Env) (s : Seat) (line : Str) : Prop := ∃ toks, Lex.Line line toks ∧ Does E s s.place toks .undefined

/-- What the line does is undefined: it asks for a sum that is too large, or executes a line that does so; or it refers to the history when nothing has ever been recorded, or nothing is (C26). -/
inductive Fails (E : Env) : Seat → Str → Prop
  | sum {s line} : Overflows E (s.recorded line) line → Fails E s line
  | again {s line n c} : Recalls line n → (n, c) ∈ (s.skipped line).book.listing → Fails E (s.skipped line) c → Fails E s line
  | empty {s line} : Bang line → (s.recorded line).book.entries = [] ∨ ((s.skipped line).book.first = 0 ∧ (s.skipped line).book.entries = []) → Fails E s line

/-- Numbers in the line can be read: no byte for which `isdigit` is undefined (C04), no minus sign where overflow is (C05). -/
def Readable (p : Platform) (line : Str) : Prop := ∀ c ∈ line, p.ctypeUB c = false ∧ (p.strictOverflow = false ∨ c ≠ b%'-')

/-- The line leads to one that is not `!` and a number (or to no line), through at most so many that are, and all of these can be read. -/
inductive Within (E : Env) : Nat → Seat → Str → Prop
  | plain {k s line} : Readable E.p line → ¬ Bang line → Within E k s line
  | again {k s line n} : Readable E.p line → Recalls line n → (∀ c, (n, c) ∈ (s.skipped line).book.listing → Within E k (s.skipped line) c) → Within E (k + 1) s line

/-- What is written when a session ends. -/
def farewell (telnet : Bool) : Str := (if telnet then bs!"Terminating this session...\n" else bs!"Closing App...\n") ++ bs!"Goodbye and thanks for all the fish.\n"

/-- What these lines lead to and what is written: after each line there is a prompt. -/
inductive Output (E : Env) : Seat → List Str → Seat → Str → Prop
  | nil {s} : Output E s [] s []
  | line {s s' s'' l ls t o} : Answer E s l s' t → Output E s'.prompted ls s'' o → Output E s (l :: ls) s'' (t ++ s'.prompt ++ o)

end Verif.Showcase
