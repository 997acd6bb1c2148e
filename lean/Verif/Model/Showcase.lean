import Verif.Model.Plugins

/-!
# Model of the menus and commands of the program `examples/complete.cpp`

The menus (complete.cpp:99-238), the functions of the commands and the handlers and actions of the `Cli` and of the sessions (244-282), as an `App` for the sessions of `Model/Session`. How the sessions share a `Cli` and how the program ends is in
`Model/Complete`.

Simplified: the history storage is arbitrary. The flushing of `endl` is left out. The texts that the values of the types `Bar` and `std::complex<double>` are shown as are parameters, as is what their `operator>>` accepts (`Platform.extract`). What happens after an
overflow of `int` in a command is not modelled: it is recorded in the state (`ub`).
-/

namespace Verif.Showcase
open FromString (Value)
open Plugins (int str number fits sorted)

/-- State of the program apart from the library. -/
structure St where
  /-- `scheduler.Stop()` has been called (complete.cpp:274) -/
  stopped : Bool
  /-- a command has had undefined behaviour (ghost) -/
  ub : Bool
  deriving DecidableEq, Repr

/-- What depends on the implementation of C++. -/
structure Env where
  p : Platform
  /-- `to_string` of a `Bar` (complete.cpp:72) -/
  bar : Nat → Str
  /-- `out << x` for a `std::complex<double>` -/
  complex : Nat → Str

def cmd (id : Id) (name : Str) (params : List Param) (desc : Str) (parDesc : List Str := []) : Cmd := ⟨id, name, .variadic params, id, desc, parDesc⟩

/-- complete.cpp:99, 221, 231: the menus. -/
def rootInfo : MenuInfo := ⟨0, bs!"cli", bs!"(menu)", bs!"cli"⟩
def subInfo : MenuInfo := ⟨18, bs!"sub", bs!"Enter a submenu", bs!"submenu"⟩
def subsubInfo : MenuInfo := ⟨21, bs!"subsub", bs!"Enter a submenu of second level", bs!"subsub"⟩

/-- complete.cpp:232-235. -/
def subsubKids : Forest := .cmd (cmd 22 bs!"hello" [] bs!"Print hello world in the sub-submenu") .nil

/-- complete.cpp:222-229, 236. -/
def subKids : Forest :=
  .cmd (cmd 19 bs!"hello" [] bs!"Print hello world in the submenu")
  (.cmd (cmd 20 bs!"demo" [] bs!"Print a demo string") (.menu subsubInfo subsubKids .nil))

/-- complete.cpp:187-206: the commands that the program keeps handles to. -/
def colorCmd : Cmd := cmd 15 bs!"color" [] bs!"Enable colors in the cli"
def nocolorCmd : Cmd := cmd 16 bs!"nocolor" [] bs!"Disable colors in the cli"

/-- complete.cpp:208-215, 238. -/
def lastKids : Forest := .cmd (cmd 17 bs!"removecmds" [] bs!"Remove both color and nocolor commands from the menu") (.menu subInfo subKids .nil)

/-- complete.cpp:101-186: the first commands of the root menu, followed by others. -/
def firstKids (rest : Forest) : Forest :=
  .cmd (cmd 1 bs!"free_function" [int] bs!"Call a free function that echoes the parameter passed")
  (.cmd (cmd 2 bs!"hello" [] bs!"Print hello world")
  (.cmd (cmd 3 bs!"hello_everysession" [] bs!"Print hello everybody on all open sessions")
  (.cmd (cmd 4 bs!"answer" [int] bs!"Print the answer to Life, the Universe and Everything")
  (.cmd (cmd 5 bs!"file" [int] bs!"Print the file descriptor specified" [bs!"file_descriptor"])
  (.cmd (cmd 6 bs!"echo" [str] bs!"Print the string passed as parameter" [bs!"string to echo"])
  (.cmd (cmd 7 bs!"echo" [str, str] bs!"Print the strings passed as parameter" [bs!"first string to echo", bs!"second string to echo"])
  (.cmd (cmd 8 bs!"error" [] bs!"Throw an exception in the command handler")
  (.cmd (cmd 9 bs!"reverse" [str] bs!"Print the reverse string" [bs!"string_to_revert"])
  (.cmd (cmd 10 bs!"add" [int, int] bs!"Print the sum of the two numbers" [bs!"first_term", bs!"second_term"])
  (.cmd (cmd 11 bs!"add" [int, int, int] bs!"Print the sum of the three numbers")
  (.cmd ⟨12, bs!"sort", .freeform, 12, bs!"Alphabetically sort a list of words", [bs!"list of strings separated by space"]⟩
  (.cmd (cmd 13 bs!"bar" [⟨.custom 0, bs!"<bar>"⟩] bs!"Custom type")
  (.cmd (cmd 14 bs!"complex" [⟨.custom 1, bs!"<complex>"⟩] bs!"Print a complex number") rest)))))))))))))

/-- The menus as they are constructed. -/
def tree : Tree := ⟨rootInfo, firstKids (.cmd colorCmd (.cmd nocolorCmd lastKids))⟩

/-- A command that writes something. -/
def writes (s : St) (text : Str) : Effect St := ⟨s, [.out text], none⟩

/-- A command that writes the result of a calculation with these intermediate results, unless one of them overflows. -/
def calculates (s : St) (results : List Int) (text : Str) : Effect St :=
  if results.all fits then writes s text else ⟨{ s with ub := true }, [], none⟩

/-- The functions of the commands (complete.cpp:67, 101-215, 222-235). -/
def call (E : Env) (s : St) : Nat → List Value → Effect St
  | 1, [.int x] => writes s (number x ++ bs!"\n")
  | 2, _ => writes s bs!"Hello, world\n"
  | 3, _ => ⟨s, [.cout bs!"Hello, everybody\n"], none⟩
  | 4, [.int x] => writes s (bs!"The answer is: " ++ number x ++ bs!"\n")
  | 5, [.int x] => writes s (bs!"file descriptor: " ++ number x ++ bs!"\n")
  | 6, [.str a] => writes s (a ++ bs!"\n")
  | 7, [.str a, .str b] => writes s (a ++ bs!" " ++ b ++ bs!"\n")
  | 8, _ => ⟨s, [], some (.std bs!"Error in cmd")⟩
  | 9, [.str a] => writes s (a.reverse ++ bs!"\n")
  | 10, [.int x, .int y] => calculates s [x + y] (number x ++ bs!" + " ++ number y ++ bs!" = " ++ number (x + y) ++ bs!"\n")
  | 11, [.int x, .int y, .int z] => calculates s [x + y, x + y + z] (number x ++ bs!" + " ++ number y ++ bs!" + " ++ number z ++ bs!" = " ++ number (x + y + z) ++ bs!"\n")
  | 12, vs => writes s (bs!"sorted list: " ++ (sorted (vs.filterMap fun | .str a => some a | _ => none)).flatMap (fun a => a ++ bs!" ") ++ bs!"\n")
  | 13, [.custom _ v] => writes s (bs!"You entered bar: " ++ E.bar v ++ bs!"\n")
  | 14, [.custom _ v] => writes s (bs!"You entered complex : " ++ E.complex v ++ bs!"\n")
  | 15, _ => ⟨s, [.out bs!"Colors ON\n", .color true, .disable 15, .enable 16], none⟩
  | 16, _ => ⟨s, [.out bs!"Colors OFF\n", .color false, .enable 15, .disable 16], none⟩
  | 17, _ => ⟨s, [.remove 15, .remove 16], none⟩
  | 19, _ => writes s bs!"Hello, submenu world\n"
  | 20, _ => writes s bs!"This is a sample!\n"
  | 22, _ => writes s bs!"Hello, subsubmenu world\n"
  | _, _ => ⟨s, [], none⟩

/-- What happens when the local session ends (complete.cpp:270-276), and when that of a client does (282). -/
def leaves (telnet : Bool) (s : St) : Effect St :=
  if telnet then writes s bs!"Terminating this session...\n" else ⟨{ s with stopped := true }, [.out bs!"Closing App...\n"], none⟩

/-- complete.cpp:244-267: the `Cli`, with the exit action of a session. -/
def app {τ : Type} (E : Env) (store : τ → List Str → τ) (stored : τ → List Str) (telnet : Bool) : App St τ :=
  { plat := E.p
    handler := fun n s vals => call E s n vals
    onException := some (fun s line e => writes s (bs!"Exception caught in CLI handler: " ++ e.what ++ bs!" while handling command: " ++ line ++ bs!".\n"))
    onWrong := some (fun s line => writes s (bs!"Unknown command or incorrect parameters: " ++ line ++ bs!".\n"))
    enterGlobal := none
    exitGlobal := some (fun s => writes s bs!"Goodbye and thanks for all the fish.\n")
    enterSession := none
    exitSession := some (leaves telnet)
    store := store
    stored := stored }

/-- The `Cli` before there is a session: `nocolor` is disabled (complete.cpp:207), colours are off (colorprofile.h:38). -/
def cli {τ : Type} (storage : τ) : World St τ :=
  { app := ⟨false, false⟩, tree := tree, dis := fun i => i == 16, used := tree.ids, gen := 0, storage := storage, io := ⟨⟨false, false, false⟩, []⟩, casts := [], hist := History.init 0, current := 0, exit := false, log := [] }

/-- complete.cpp:269: a session is constructed; `tty`: its stream is a terminal. -/
def session {τ : Type} (E : Env) (store : τ → List Str → τ) (stored : τ → List Str) (telnet : Bool) (n : Nat) (tty : Bool) (storage : τ) : World St τ :=
  newSession (app E store stored telnet) n (cli storage) ⟨⟨false, tty, false⟩, []⟩

/-- commandprocessor.h:107-108: each of the lines is executed, and then the prompt is written (if the session goes on). -/
def typed {σ τ : Type} (A : App σ τ) (fuel : Nat) : List Str → World σ τ → Except Fault (World σ τ × Option Exn)
  | [], w => .ok (w, none)
  | l :: ls, w =>
    match feed A fuel l w with
    | .error f => .error f
    | .ok (w, some e) => .ok (w, some e)
    | .ok (w, none) =>
      match prompt w with
      | .error f => .error f
      | .ok w => typed A fuel ls w

end Verif.Showcase
