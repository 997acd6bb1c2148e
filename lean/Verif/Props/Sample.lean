import Verif.Model.Session
import Verif.Props.FromString

/-!
# A sample application, for the concrete cases beside the theorems
-/

namespace Verif.Props.Sample
open Verif

def int : Param := ⟨.signed .w32, bs!"<int>"⟩
def str : Param := ⟨.string, bs!"<string>"⟩

def cmd (id : Id) (name : Str) (kind : Kind) (fn : Nat) : Cmd := { id, name, kind, fn, desc := bs!"d", parDesc := [] }
def info (id : Id) (name : Str) : MenuInfo := { id, name, desc := bs!"(menu)", prompt := name }

def addInt : Cmd := cmd 1 bs!"add" (.variadic [int, int]) 1
def addStr : Cmd := cmd 2 bs!"add" (.variadic [str, str]) 2
def go : Cmd := cmd 4 bs!"go" (.variadic []) 4
def any : Cmd := cmd 5 bs!"any" .freeform 5
def boom : Cmd := cmd 6 bs!"boom" (.variadic []) 6
def cast : Cmd := cmd 7 bs!"cast" (.variadic []) 7
def cast2 : Cmd := cmd 8 bs!"cast" .freeform 8
def odd : Cmd := cmd 9 bs!"odd" (.variadic []) 9
def drop : Cmd := cmd 10 bs!"drop" (.variadic []) 10
def help : Cmd := cmd 11 bs!"help" .freeform 11
def deep : MenuInfo := info 12 bs!"deep"
def root : MenuInfo := info 0 bs!"cli"
def sub : MenuInfo := info 3 bs!"sub"
def deepKids : Forest := .cmd (cmd 13 bs!"go" (.variadic []) 13) .nil
def subKids : Forest := .cmd go (.cmd drop (.menu deep deepKids .nil))
/-- The root menu with two overloads of `add`, a free-form command, some that throw, and a menu `sub` with a command `go` and a menu `deep`. -/
def kids : Forest :=
  .cmd addInt (.cmd addStr (.menu sub subKids (.cmd any (.cmd boom (.cmd cast (.cmd cast2 (.cmd odd (.cmd help .nil))))))))
def tree : Tree := ⟨root, kids⟩

/-- The application's state is the list of functions called, latest first. Function 6 throws a `std::runtime_error`, 7 a `std::bad_cast`, 9 something
    that is no `std::exception`; 10 removes the menu `sub`. -/
def handler (fn : Nat) (s : List Nat) (_ : List FromString.Value) : Effect (List Nat) :=
  { app := fn :: s
    acts := if fn = 10 then [.remove 3] else [.out bs!"ok\n"]
    exn := if fn = 6 then some (.std bs!"no") else if fn = 7 then some (.badCast bs!"cast") else if fn = 9 then some .other else none }

/-- The storage keeps what it is given. -/
def app : App (List Nat) (List Str) :=
  { plat := plat, handler := handler, onException := none, onWrong := none, enterGlobal := none, exitGlobal := none,
    enterSession := none, exitSession := some (fun s => ⟨s, [], none⟩), store := fun _ l => l, stored := id }

/-- The same application with a `cast` that throws nothing. -/
def tame : App (List Nat) (List Str) :=
  { app with handler := fun fn s vals => { handler fn s vals with exn := if fn = 7 then none else (handler fn s vals).exn } }

def io : Io := { style := { color := false, tty := false, forced := false }, out := [] }

/-- A session in the root menu, with nothing in the history and nothing disabled. -/
def world : World (List Nat) (List Str) :=
  { app := [], tree := tree, dis := fun _ => false, used := tree.ids, gen := 0, storage := [], io := io, casts := [],
    hist := History.init 10, current := 0, exit := false, log := [] }

end Verif.Props.Sample
