import Verif.Model.FileSession
import Verif.Model.Storage

/-!
# Model of the programs `examples/filesession.cpp` and `examples/simplelocalsession.cpp`

Both construct the same menus and run a `CliFileSession`: the first one reads `input.txt` and writes `output.txt`, the second one uses `std::cin` and `std::cout`. What happens in the session is that of `Model/FileSession`. The menus of
`examples/asyncsession.cpp` are the same.

Simplified: reading and writing the files that have been opened succeeds; the flushing of `endl` is left out.
-/

namespace Verif.Script
open FromString (Value)

def cmd (id : Id) (name : Str) (params : List Param) (fn : Nat) (desc : Str) : Cmd := ⟨id, name, .variadic params, fn, desc, []⟩

/-- filesession.cpp:42, 64, 74: the menus, with the default description and prompt (cli.h:458-464). -/
def rootInfo : MenuInfo := ⟨0, bs!"cli", bs!"(menu)", bs!"cli"⟩
def subInfo : MenuInfo := ⟨6, bs!"sub", bs!"(menu)", bs!"sub"⟩
def subsubInfo : MenuInfo := ⟨9, bs!"subsub", bs!"(menu)", bs!"subsub"⟩

/-- filesession.cpp:75-78. -/
def subsubKids : Forest := .cmd (cmd 10 bs!"hello" [] 8 bs!"Print hello world in the sub-submenu") .nil

/-- filesession.cpp:65-72, 79. -/
def subKids : Forest :=
  .cmd (cmd 7 bs!"hello" [] 6 bs!"Print hello world in the submenu")
  (.cmd (cmd 8 bs!"demo" [] 7 bs!"Print a demo string") (.menu subsubInfo subsubKids .nil))

/-- filesession.cpp:43-62, 81. -/
def rootKids : Forest :=
  .cmd (cmd 1 bs!"hello" [] 1 bs!"Print hello world")
  (.cmd (cmd 2 bs!"hello_everysession" [] 2 bs!"Print hello everybody on all open sessions")
  (.cmd (cmd 3 bs!"answer" [⟨.signed .w32, bs!"<int>"⟩] 3 bs!"Print the answer to Life, the Universe and Everything ")
  (.cmd (cmd 4 bs!"color" [] 4 bs!"Enable colors in the cli")
  (.cmd (cmd 5 bs!"nocolor" [] 5 bs!"Disable colors in the cli") (.menu subInfo subKids .nil)))))

def tree : Tree := ⟨rootInfo, rootKids⟩

/-- `out << x` for an `int`. -/
def number (x : Int) : Str := if x < 0 then b%'-' :: decimal x.natAbs else decimal x.natAbs

/-- filesession.cpp:45, 49, 53, 57, 61, 67, 71, 77: what the functions of the commands do. -/
def acts : Nat → List Value → List Act
  | 1, _ => [.out bs!"Hello, world\n"]
  | 2, _ => [.cout bs!"Hello, everybody\n"]
  | 3, [.int x] => [.out (bs!"The answer is: " ++ number x ++ bs!"\n")]
  | 4, _ => [.out bs!"Colors ON\n", .color true]
  | 5, _ => [.out bs!"Colors OFF\n", .color false]
  | 6, _ => [.out bs!"Hello, submenu world\n"]
  | 7, _ => [.out bs!"This is a sample!\n"]
  | 8, _ => [.out bs!"Hello, subsubmenu world\n"]
  | _, _ => []

/-- filesession.cpp:84-86: the `Cli` with its exit action and the default storage (cli.h:139). -/
def app (p : Platform) : App Unit Storage.Volatile :=
  { plat := p
    handler := fun fn _ vals => ⟨(), acts fn vals, none⟩
    onException := none
    onWrong := none
    enterGlobal := none
    exitGlobal := some (fun _ => ⟨(), [.out bs!"Goodbye and thanks for all the fish.\n"], none⟩)
    enterSession := none
    exitSession := none
    store := Storage.Volatile.store
    stored := Storage.Volatile.Commands }

/-- The `Cli` before there is a session; colours are off at first (colorprofile.h:38). `tty`: the output is a terminal. -/
def cli (tty : Bool) : World Unit Storage.Volatile :=
  { app := (), tree := tree, dis := fun _ => false, used := tree.ids, gen := 0, storage := Storage.Volatile.init 1000, io := ⟨⟨false, tty, false⟩, []⟩, casts := [], hist := History.init 0, current := 0, exit := false, log := [] }

/-- filesession.cpp:100-101, simplelocalsession.cpp:87-88: the session is constructed and started on an input with these characters (`n` rounds of the loop at most). The result is what it has written, with the exception that leaves it, if any. -/
def session (p : Platform) (tty : Bool) (fuel n : Nat) (input : Str) : Except Fault (Option (Str × Option Exn)) :=
  match FileSession.create (app p) (.of input) true (cli tty) (cli tty).io with
  | .error e => .ok (some ([], some e))
  | .ok w =>
    match FileSession.start (FileSession.fileApp (app p) none) fuel n (.of input) w with
    | .error f => .error f
    | .ok none => .ok none
    | .ok (some E) => .ok (some (E.w.io.out, E.exn))

/-- How `main` of `filesession.cpp` ends. -/
structure Exit where
  code : Nat
  /-- the text on `std::cerr` -/
  err : Str
  /-- what has become of `output.txt`; `none`: it has not been touched -/
  file : Option Str
  deriving DecidableEq, Repr

/-- filesession.cpp:88-103: `input` is what `input.txt` contains, if it can be opened; `writable` tells whether `output.txt` can. An exception that leaves `Start` would end the program. -/
def main (p : Platform) (fuel n : Nat) (input : Option Str) (writable : Bool) : Except Fault (Option Exit) :=
  match input with
  | none => .ok (some ⟨1, bs!"File input.txt not found in current directory!\n", none⟩)
  | some text =>
    if !writable then .ok (some ⟨1, bs!"Can't write file output.txt in the current directory!\n", none⟩)
    else
      match session p false fuel n text with
      | .error f => .error f
      | .ok (some (out, none)) => .ok (some ⟨0, [], some out⟩)
      | .ok _ => .ok none

end Verif.Script
