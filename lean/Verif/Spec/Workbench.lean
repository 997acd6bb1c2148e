import Verif.Spec.Plugins
import Verif.Spec.Screenplay

/-!
# What can be seen on the screen of the plugin manager (C135)

The whole of what the screen of `examples/pluginmanager.cpp` receives: the prompts, the characters as they are typed, and the answers, which depend on the plugins loaded. The history is described as for the program `complete` (`Spec/Showcase`), and
so are sums and sorted lists.
-/

namespace Verif.Workbench
open Spec
open Plugins (Plug)
open Showcase (Book Bang Readable Recalls IsInt Small Shows Dictionary enter)

/-- The menus: that of the program, and those of the plugins. -/
inductive Place where
  | root
  | plug (p : Plug)
  deriving DecidableEq, Repr

def Place.name : Place → Str
  | .root => bs!"cli"
  | .plug .arithmetic => bs!"arithmetic"
  | .plug .strings => bs!"strings"

/-- The name of a plugin. -/
def called (p : Plug) : Str := (Place.plug p).name

/-- What the answers and the prompt depend on. -/
structure Desk where
  /-- the plugins loaded, in the order of loading; the same plugin can be loaded several times -/
  loaded : List Plug
  place : Place
  /-- colours have been switched on or off, or neither -/
  choice : Option Bool
  /-- escape sequences are written, as the output is a terminal or a coloured prompt has been written before -/
  escapes : Bool
  book : Book
  deriving DecidableEq, Repr

/-- At first no plugin is loaded and there is no history; there is room for 200 lines. -/
def Desk.start (tty : Bool) : Desk := ⟨[], .root, none, tty, Book.open 200 []⟩

/-- Colours are on. -/
def Desk.colour (s : Desk) : Bool := s.choice == some true

/-- What a command does. -/
inductive Reply where
  | says (text : Str)
  /-- a sum or a difference is too large -/
  | undefined
  | chooses (on : Bool)
  | goes (p : Place)
  | loads (p : Plug)
  /-- all plugins of this name are unloaded -/
  | unloads (name : Str)

/-- A command without parameters. -/
def plain (r : Reply) (args : List Str) (x : Reply) : Prop := args = [] ∧ x = r

/-- What a sum or a difference of two numbers is announced as; `op` calculates it, `sign` stands between the numbers. -/
def calc2 (op : Int → Int → Int) (sign : Str) (args : List Str) (x : Reply) : Prop :=
  ∃ a b i j, args = [a, b] ∧ IsInt a i ∧ IsInt b j ∧
    ((Small (op i j) ∧ ∃ d e s, Shows d i ∧ Shows e j ∧ Shows s (op i j) ∧ x = .says (d ++ sign ++ e ++ bs!" = " ++ s ++ bs!"\n")) ∨ (¬ Small (op i j) ∧ x = .undefined))

/-- … of three numbers: the sum of the first two must not be too large either. -/
def sum3 (args : List Str) (x : Reply) : Prop :=
  ∃ a b c i j k, args = [a, b, c] ∧ IsInt a i ∧ IsInt b j ∧ IsInt c k ∧
    ((Small (i + j) ∧ Small (i + j + k) ∧ ∃ d e f s, Shows d i ∧ Shows e j ∧ Shows f k ∧ Shows s (i + j + k) ∧ x = .says (d ++ bs!" + " ++ e ++ bs!" + " ++ f ++ bs!" = " ++ s ++ bs!"\n")) ∨
      (¬ (Small (i + j) ∧ Small (i + j + k)) ∧ x = .undefined))

/-- The words in the order of a dictionary. -/
def sort (args : List Str) (x : Reply) : Prop := ∃ l : List Str, l.Perm args ∧ l.Pairwise Dictionary ∧ x = .says (bs!"sorted list: " ++ l.flatMap (· ++ bs!" ") ++ bs!"\n")

/-- The capital letter in place of a small one. -/
def capital (c : Byte) : Byte := if b%'a' ≤ c ∧ c ≤ b%'z' then c - (b%'a' - b%'A') else c

/-- One line for each plugin. -/
def listed (ps : List Plug) : Str := ps.flatMap fun p => bs!" - " ++ called p ++ bs!"\n"

/-- The table of the commands: the name, and what the command does with its arguments. Which of the two plugins is listed first is not specified by the language (`arithmeticFirst`). -/
def rows (arithmeticFirst : Bool) (s : Desk) : Place → List (Str × (List Str → Reply → Prop))
  | .root =>
    [(bs!"list", plain (.says (if arithmeticFirst then bs!" - arithmetic\n - strings\n" else bs!" - strings\n - arithmetic\n"))),
     (bs!"loaded", plain (.says (listed s.loaded))),
     (bs!"load", fun args x => ∃ a, args = [a] ∧ ((∃ p, a = called p ∧ x = .loads p) ∨ ((∀ p, a ≠ called p) ∧ x = .says []))),
     (bs!"unload", fun args x => ∃ a, args = [a] ∧ x = .unloads a),
     (bs!"color", fun args x => s.choice ≠ some true ∧ plain (.chooses true) args x),
     (bs!"nocolor", fun args x => s.choice ≠ some false ∧ plain (.chooses false) args x)]
  | .plug .arithmetic => [(bs!"add", calc2 (· + ·) bs!" + "), (bs!"add", sum3), (bs!"sub", calc2 (· - ·) bs!" - ")]
  | .plug .strings =>
    [(bs!"reverse", fun args x => ∃ a, args = [a] ∧ x = .says (a.reverse ++ bs!"\n")), (bs!"upper", fun args x => ∃ a, args = [a] ∧ x = .says (a.map capital ++ bs!"\n")), (bs!"sort", sort)]

/-- Which menu contains which. -/
def Above (s : Desk) (a b : Place) : Prop := a = .root ∧ ∃ p ∈ s.loaded, b = .plug p

/-- What a line does. It can begin with the name of a menu below, or with that of the menu above or `..`; the rest is then understood as if it had been typed there. -/
inductive Does (arithmeticFirst : Bool) (s : Desk) : Place → List Str → Reply → Prop
  | here {pl name does args r} : (name, does) ∈ rows arithmeticFirst s pl → does args r → Does arithmeticFirst s pl (name :: args) r
  | down {a b} : Above s a b → Does arithmeticFirst s a [b.name] (.goes b)
  | inside {a b rest r} : Above s a b → Does arithmeticFirst s b rest r → Does arithmeticFirst s a (b.name :: rest) r
  | up {a b t} : Above s a b → t = a.name ∨ t = bs!".." → Does arithmeticFirst s b [t] (.goes a)
  | outside {a b t rest r} : Above s a b → t = a.name ∨ t = bs!".." → Does arithmeticFirst s a rest r → Does arithmeticFirst s b (t :: rest) r

/-- What `help` lists, after the commands that there are everywhere. -/
def Desk.offers (s : Desk) : List HelpItem :=
  match s.place with
  | .root =>
    [⟨bs!"list", [], bs!"Print the plugin list"⟩, ⟨bs!"loaded", [], bs!"Load the plugin specified"⟩, ⟨bs!"load", [bs!"<plugin_name>"], bs!"Load the plugin specified"⟩, ⟨bs!"unload", [bs!"<plugin_name>"], bs!"Unload the plugin specified"⟩] ++
    (if s.choice = some true then [] else [⟨bs!"color", [], bs!"Enable colors in the cli"⟩]) ++ (if s.choice = some false then [] else [⟨bs!"nocolor", [], bs!"Disable colors in the cli"⟩]) ++
    s.loaded.map fun p => ⟨called p, [], bs!"Enter the " ++ called p ++ bs!" plugin menu"⟩
  | .plug .arithmetic =>
    [⟨bs!"add", [bs!"<first_term>", bs!"<second_term>"], bs!"Print the sum of the two numbers"⟩, ⟨bs!"add", [bs!"<int>", bs!"<int>", bs!"<int>"], bs!"Print the sum of the three numbers"⟩,
     ⟨bs!"sub", [bs!"<subtrahend>", bs!"<minuend>"], bs!"Print the result of a subtraction"⟩, ⟨bs!"cli", [], bs!"(menu)"⟩]
  | .plug .strings =>
    [⟨bs!"reverse", [bs!"<string_to_revert>"], bs!"Print the reverse string"⟩, ⟨bs!"upper", [bs!"<string>"], bs!"Print the string in uppercase"⟩,
     ⟨bs!"sort", [bs!"<list of strings separated by space>"], bs!"Alphabetically sort a list of words"⟩, ⟨bs!"cli", [], bs!"(menu)"⟩]

def Desk.apply (s : Desk) : Reply → Desk
  | .chooses on => { s with choice := some on }
  | .goes p => { s with place := p }
  | .loads p => { s with loaded := s.loaded ++ [p] }
  | .unloads n => { s with loaded := s.loaded.filter fun p => called p != n }
  | _ => s

/-- What is said of plugins that are unloaded. -/
def unloadings (ps : List Plug) : Str := ps.flatMap fun p => bs!"Plugin " ++ called p ++ bs!" unloaded\n"

/-- What is written. -/
def Reply.text (s : Desk) : Reply → Str
  | .says t => t
  | .chooses true => bs!"Colors ON\n"
  | .chooses false => bs!"Colors OFF\n"
  | .loads p => bs!"Plugin " ++ called p ++ bs!" loaded\n"
  | .unloads n => unloadings (s.loaded.filter fun p => called p == n)
  | _ => []

/-- The menu in which the session is disappears. -/
def Pulls (s : Desk) (r : Reply) : Prop := ∃ p, s.place = .plug p ∧ r = .unloads (called p)

def Desk.recorded (s : Desk) (line : Str) : Desk := { s with book := s.book.record line }

/-- Recorded, and deleted again. -/
def Desk.skipped (s : Desk) (line : Str) : Desk := { s with book := (s.book.record line).forget }

/-- What a line other than `exit` does and writes. -/
inductive Answer (arithmeticFirst : Bool) : Desk → Str → Desk → Str → Prop
  | blank {s line} : Lex.Line line [] → Answer arithmeticFirst s line s []
  | help {s line} : Lex.Line line [bs!"help"] → Answer arithmeticFirst s line (s.recorded line) (bs!"Commands available:\n" ++ (globalItems ++ s.offers).flatMap HelpItem.text)
  | does {s line toks r} : Lex.Line line toks → Does arithmeticFirst s s.place toks r → r ≠ .undefined → ¬ Pulls s r → Answer arithmeticFirst s line ((s.recorded line).apply r) (r.text s)
  | wrong {s line toks} : Lex.Line line toks → toks ∉ [[], [bs!"help"], [bs!"history"], [bs!"exit"]] → ¬ Bang line → (∀ r, ¬ Does arithmeticFirst s s.place toks r) →
      Answer arithmeticFirst s line (s.recorded line) (bs!"wrong command: " ++ line ++ bs!"\n")
  | history {s line} : Lex.Line line [bs!"history"] → Answer arithmeticFirst s line (s.recorded line) (HistoryList.render (s.recorded line).book.listing)
  /-- the line with this number is executed, in place of this one -/
  | again {s line n c s' t} : Recalls line n → (n, c) ∈ (s.skipped line).book.listing → Answer arithmeticFirst (s.skipped line) c s' t → Answer arithmeticFirst s line s' t
  | unknown {s line n} : Recalls line n → (∀ c, (n, c) ∉ (s.skipped line).book.listing) →
      Answer arithmeticFirst s line (s.skipped line) bs!"Index not found in history\n"

/-- The line ends the session. -/
inductive Quits : Desk → Str → Prop
  | exit {s line} : Lex.Line line [bs!"exit"] → Quits s line
  | again {s line n c} : Recalls line n → (n, c) ∈ (s.skipped line).book.listing → Quits (s.skipped line) c → Quits s line

/-- What the line leads to is undefined: it asks for a sum or a difference that is too large, or unloads the plugin in whose menu the session is (the prompt then asks for the name of a menu that no longer exists), or executes a line that does so;
    or it refers to the history when nothing has ever been recorded, or nothing is (C26). -/
inductive Fails (arithmeticFirst : Bool) : Desk → Str → Prop
  | does {s line toks r} : Lex.Line line toks → Does arithmeticFirst s s.place toks r → r = .undefined ∨ Pulls s r → Fails arithmeticFirst s line
  | again {s line n c} : Recalls line n → (n, c) ∈ (s.skipped line).book.listing → Fails arithmeticFirst (s.skipped line) c → Fails arithmeticFirst s line
  | empty {s line} : Bang line → (s.recorded line).book.entries = [] ∨ ((s.skipped line).book.first = 0 ∧ (s.skipped line).book.entries = []) → Fails arithmeticFirst s line

/-- The line leads to one that is not `!` and a number (or to no line), through at most so many that are, and all of these can be read. -/
inductive Within (p : Platform) : Nat → Desk → Str → Prop
  | plain {k s line} : Readable p line → ¬ Bang line → Within p k s line
  | again {k s line n} : Readable p line → Recalls line n → (∀ c, (n, c) ∈ (s.skipped line).book.listing → Within p k (s.skipped line) c) → Within p (k + 1) s line

/-- What is written when the session ends. -/
def farewell : Str := bs!"Closing App...\nGoodbye and thanks for all the fish.\n"

/-- The prompt: in bold green, if colours are on; what comes after the name resets the colours. -/
def Desk.prompt (s : Desk) : Str := (if s.colour then bs!"\x1b[32m\x1b[1m" else []) ++ s.place.name ++ (if s.colour || s.escapes then bs!"\x1b[0m" else []) ++ bs!"> "

/-- From then on escape sequences are written. -/
def Desk.prompted (s : Desk) : Desk := { s with escapes := s.colour || s.escapes }

/-- How a character that is typed appears: in bright gray if colours are on; what comes after it resets the colours. -/
def Desk.echo (s : Desk) (c : Byte) : Str := (if s.colour then bs!"\x1b[97m" else []) ++ [c] ++ (if s.colour || s.escapes then bs!"\x1b[0m" else [])

def Desk.echoes (s : Desk) (l : Str) : Str := l.flatMap s.echo

/-- Lines and the answers to them: the line as it is typed, the end of the line, what is written, and the next prompt. -/
inductive Dialogue (arithmeticFirst : Bool) : Desk → List Str → Desk → Str → Prop
  | nil {s} : Dialogue arithmeticFirst s [] s []
  | line {s s' s'' l ls t o} : Answer arithmeticFirst s l s' t → Dialogue arithmeticFirst s'.prompted ls s'' o → Dialogue arithmeticFirst s (l :: ls) s'' (s.echoes l ++ bs!"\r\n" ++ t ++ s'.prompt ++ o)

/-- What is on the screen after the first prompt, when these characters have been typed. -/
inductive Scene (arithmeticFirst : Bool) (s : Desk) : Str → Str → Prop
  /-- some lines, and the beginning of another one -/
  | typing {ls s' o l} : Dialogue arithmeticFirst s ls s' o → (∀ l ∈ ls, Printable l) → Printable l → Scene arithmeticFirst s (enter ls ++ l) (o ++ s'.echoes l)
  /-- some lines, and one that ends the session -/
  | over {ls s' o l} : Dialogue arithmeticFirst s ls s' o → (∀ l ∈ ls, Printable l) → Printable l → Quits s' l → Scene arithmeticFirst s (enter ls ++ (l ++ bs!"\n")) (o ++ s'.echoes l ++ bs!"\r\n" ++ farewell)

/-- Lines to be typed, of which the last one ends the session and no other does: printable ones, for which the behaviour is defined, and which do not lead through more than so many lines that refer to the history. -/
structure Play (p : Platform) (arithmeticFirst : Bool) (depth : Nat) (s : Desk) (ls : List Str) (x : Str) : Prop where
  lines : ∀ l ∈ ls ++ [x], Printable l
  fine : ∀ a l b s' o, ls = a ++ l :: b → Dialogue arithmeticFirst s a s' o → ¬ Fails arithmeticFirst s' l ∧ ¬ Quits s' l ∧ Within p depth s' l
  last : ∀ s' o, Dialogue arithmeticFirst s ls s' o → Quits s' x ∧ Within p depth s' x

end Verif.Workbench
