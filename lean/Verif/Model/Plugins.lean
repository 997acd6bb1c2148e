import Verif.Model.LocalSession
import Verif.Model.Storage

/-!
# Model of the program `examples/pluginmanager.cpp`

The commands `load` and `unload` of the root menu insert and remove menus while the session runs. Everything the program writes goes to `std::cout`, which is also the stream of the session. The commands are functions of an `App`; what happens to
the menus, to the session and to the history is that of `Model/Session`.

Simplified: the order in which the two plugins are registered is not specified by the language (the static members `registration` of the template are initialised in no given order), it is a parameter; that `PluginRegistry::instance` is initialised
before them is taken for granted. The flushing of `endl` is left out. What happens after undefined behaviour in a command (overflow of `int`, `toupper` of a negative value) is not modelled: it is recorded in the state (`ub`).
-/

namespace Verif.Plugins
open FromString (Value)

/-- pluginmanager.cpp:162, 206: the plugins. -/
inductive Plug where
  | arithmetic | strings
  deriving DecidableEq, Repr

/-- pluginmanager.cpp:160, 204. -/
def Plug.name : Plug → Str
  | .arithmetic => bs!"arithmetic"
  | .strings => bs!"strings"

/-- pluginmanager.cpp:121: a loaded plugin, with the identity of its menu (`menuHandler`). -/
structure Item where
  plug : Plug
  menu : Nat
  deriving DecidableEq, Repr

/-- State of the program apart from the library. -/
structure St where
  /-- the vector `plugins` of the container (pluginmanager.cpp:121) -/
  loaded : List Item
  /-- the next objects have identities from here (ghost) -/
  next : Nat
  /-- `scheduler.Stop()` has been called (pluginmanager.cpp:321) -/
  stopped : Bool
  /-- a command has had undefined behaviour (ghost) -/
  ub : Bool
  deriving DecidableEq, Repr

def int : Param := ⟨.signed .w32, bs!"<int>"⟩
def str : Param := ⟨.string, bs!"<string>"⟩

/-! ### Menus -/

/-- The functions of the commands. -/
inductive Fn where
  | list | loaded | load | unload | color | nocolor | add2 | add3 | sub | reverse | upper | sort
  deriving DecidableEq, Repr

def Fn.code : Fn → Nat
  | .list => 1 | .loaded => 2 | .load => 3 | .unload => 4 | .color => 5 | .nocolor => 6
  | .add2 => 7 | .add3 => 8 | .sub => 9 | .reverse => 10 | .upper => 11 | .sort => 12

def Fn.ofCode : Nat → Option Fn
  | 1 => some .list | 2 => some .loaded | 3 => some .load | 4 => some .unload | 5 => some .color | 6 => some .nocolor
  | 7 => some .add2 | 8 => some .add3 | 9 => some .sub | 10 => some .reverse | 11 => some .upper | 12 => some .sort
  | _ => none

def cmd (id : Id) (name : Str) (parDesc : List Str) (kind : Kind) (fn : Fn) (desc : Str) : Cmd := ⟨id, name, kind, fn.code, desc, parDesc⟩

/-- pluginmanager.cpp:168-188, 212-239: the entries of a plugin's menu, whose identity is `i`. -/
def Plug.kids (i : Id) : Plug → Forest
  | .arithmetic =>
    .cmd (cmd (i + 1) bs!"add" [bs!"first_term", bs!"second_term"] (.variadic [int, int]) .add2 bs!"Print the sum of the two numbers")
    (.cmd (cmd (i + 2) bs!"add" [] (.variadic [int, int, int]) .add3 bs!"Print the sum of the three numbers")
    (.cmd (cmd (i + 3) bs!"sub" [bs!"subtrahend", bs!"minuend"] (.variadic [int, int]) .sub bs!"Print the result of a subtraction") .nil))
  | .strings =>
    .cmd (cmd (i + 1) bs!"reverse" [bs!"string_to_revert"] (.variadic [str]) .reverse bs!"Print the reverse string")
    (.cmd (cmd (i + 2) bs!"upper" [] (.variadic [str]) .upper bs!"Print the string in uppercase")
    (.cmd (cmd (i + 3) bs!"sort" [bs!"list of strings separated by space"] .freeform .sort bs!"Alphabetically sort a list of words") .nil))

/-- pluginmanager.cpp:167, 211: the menu of a plugin. -/
def Plug.info (i : Id) (p : Plug) : MenuInfo := ⟨i, p.name, bs!"Enter the " ++ p.name ++ bs!" plugin menu", p.name⟩

/-- The menu with its entries, alone in a vector. -/
def Item.forest (e : Item) (rest : Forest) : Forest := .menu (e.plug.info e.menu) (e.plug.kids e.menu) rest

/-- pluginmanager.cpp:262. -/
def rootInfo : MenuInfo := ⟨0, bs!"cli", bs!"(menu)", bs!"cli"⟩

/-- pluginmanager.cpp:264-308: the entries of the root menu, followed by others. -/
def rootKids (rest : Forest) : Forest :=
  .cmd (cmd 1 bs!"list" [] (.variadic []) .list bs!"Print the plugin list")
  (.cmd (cmd 2 bs!"loaded" [] (.variadic []) .loaded bs!"Load the plugin specified")
  (.cmd (cmd 3 bs!"load" [bs!"plugin_name"] (.variadic [str]) .load bs!"Load the plugin specified")
  (.cmd (cmd 4 bs!"unload" [bs!"plugin_name"] (.variadic [str]) .unload bs!"Unload the plugin specified")
  (.cmd (cmd 5 bs!"color" [] (.variadic []) .color bs!"Enable colors in the cli")
  (.cmd (cmd 6 bs!"nocolor" [] (.variadic []) .nocolor bs!"Disable colors in the cli") rest)))))

/-! ### Commands -/

/-- pluginmanager.cpp:72, 127-134, 147, 150-151: the registered plugins, in the order of registration. -/
def registry (arithmeticFirst : Bool) : List Plug := if arithmeticFirst then [.arithmetic, .strings] else [.strings, .arithmetic]

/-- `out << x` for an `int`. -/
def number (x : Int) : Str := if x < 0 then b%'-' :: decimal x.natAbs else decimal x.natAbs

/-- Does the value fit an `int`? -/
def fits (x : Int) : Bool := decide (-2 ^ 31 ≤ x) && decide (x < 2 ^ 31)

/-- `::toupper` in the "C" locale, where it is defined. -/
def toUpper (c : Byte) : Byte := if 97 ≤ c.toNat ∧ c.toNat ≤ 122 then c - 32 else c

/-- `operator<` of `std::string`: the characters are compared as `unsigned char`. -/
def before : Str → Str → Bool
  | [], _ => true
  | _ :: _, [] => false
  | a :: as, b :: bs => decide (a < b) || (a == b && before as bs)

/-- `std::sort` (pluginmanager.cpp:234). -/
def sorted (l : List Str) : List Str := l.mergeSort before

/-- " - name" for each of these (pluginmanager.cpp:73-77, 114-118). -/
def listing (ps : List Plug) : Str := ps.flatMap (fun p => bs!" - " ++ p.name ++ bs!"\n")

/-- A command that writes something. -/
def writes (s : St) (text : Str) : Effect St := ⟨s, [.out text], none⟩

/-- A command that writes the result of a calculation with these intermediate results, unless one of them overflows. -/
def calculates (s : St) (results : List Int) (text : Str) : Effect St :=
  if results.all fits then writes s text else ⟨{ s with ub := true }, [], none⟩

/-- pluginmanager.cpp:97-102 `Load`, with 78-84 `Create` and the constructors: the base class writes its message (59), then the menu is inserted in the root menu (190, 240). -/
def load (arithmeticFirst : Bool) (s : St) (name : Str) : Effect St :=
  match (registry arithmeticFirst).find? (fun p => p.name == name) with
  | none => ⟨s, [], none⟩
  | some p =>
    ⟨{ s with loaded := s.loaded ++ [⟨p, s.next⟩], next := s.next + 4 }, [.out (bs!"Plugin " ++ p.name ++ bs!" loaded\n"), .insert 0 (Item.forest ⟨p, s.next⟩ .nil)], none⟩

/-- pluginmanager.cpp:103-113 `Unload`: the plugins of that name are destroyed in the order of the vector: first the menu is removed (192-195, 242-245), then the base class writes its message (60). -/
def unload (s : St) (name : Str) : Effect St :=
  ⟨{ s with loaded := s.loaded.filter (fun e => e.plug.name != name) },
    (s.loaded.filter (fun e => e.plug.name == name)).flatMap (fun e => [.remove e.menu, .out (bs!"Plugin " ++ e.plug.name ++ bs!" unloaded\n")]), none⟩

/-- The functions of the commands (pluginmanager.cpp:168-188, 212-239, 264-308). -/
def call (pf : Platform) (arithmeticFirst : Bool) (s : St) : Fn → List Value → Effect St
  | .list, _ => writes s (listing (registry arithmeticFirst))
  | .loaded, _ => writes s (listing (s.loaded.map Item.plug))
  | .load, [.str n] => load arithmeticFirst s n
  | .unload, [.str n] => unload s n
  | .color, _ => ⟨s, [.out bs!"Colors ON\n", .color true, .disable 5, .enable 6], none⟩
  | .nocolor, _ => ⟨s, [.out bs!"Colors OFF\n", .color false, .enable 5, .disable 6], none⟩
  | .add2, [.int x, .int y] => calculates s [x + y] (number x ++ bs!" + " ++ number y ++ bs!" = " ++ number (x + y) ++ bs!"\n")
  | .add3, [.int x, .int y, .int z] => calculates s [x + y, x + y + z] (number x ++ bs!" + " ++ number y ++ bs!" + " ++ number z ++ bs!" = " ++ number (x + y + z) ++ bs!"\n")
  | .sub, [.int x, .int y] => calculates s [x - y] (number x ++ bs!" - " ++ number y ++ bs!" = " ++ number (x - y) ++ bs!"\n")
  | .reverse, [.str a] => writes s (a.reverse ++ bs!"\n")
  | .upper, [.str a] => if a.any pf.ctypeUB then ⟨{ s with ub := true }, [], none⟩ else writes s (a.map toUpper ++ bs!"\n")
  | .sort, vs => writes s (bs!"sorted list: " ++ (sorted (vs.filterMap fun | .str a => some a | _ => none)).flatMap (fun a => a ++ bs!" ") ++ bs!"\n")
  | _, _ => ⟨s, [], none⟩

/-- The program's functions: the commands, the exit action of the `Cli` (pluginmanager.cpp:313), that of the session (317-323), and the default history storage (cli.h:139). -/
def app (pf : Platform) (arithmeticFirst : Bool) : App St Storage.Volatile :=
  { plat := pf
    handler := fun n s vals => match Fn.ofCode n with
      | some f => call pf arithmeticFirst s f vals
      | none => ⟨s, [], none⟩
    onException := none
    onWrong := none
    enterGlobal := none
    exitGlobal := some (fun s => writes s bs!"Goodbye and thanks for all the fish.\n")
    enterSession := none
    exitSession := some (fun s => ⟨{ s with stopped := true }, [.out bs!"Closing App...\n"], none⟩)
    store := Storage.Volatile.store
    stored := Storage.Volatile.Commands }

/-- pluginmanager.cpp:262-316: the program when its session is constructed, with a history of 200 lines. -/
def boot (style : Style) : World St Storage.Volatile :=
  { app := ⟨[], 7, false, false⟩, tree := ⟨rootInfo, rootKids .nil⟩, dis := fun _ => false, used := [0, 1, 2, 3, 4, 5, 6], gen := 0, storage := Storage.Volatile.init 1000,
    io := ⟨style, []⟩, casts := [], hist := History.init 200, current := 0, exit := false, log := [] }

/-- After `main` has returned, the container is destroyed with the plugins still loaded (pluginmanager.cpp:120-124, 60). Their handles refer to a `Cli` that no longer exists and do nothing. The order of the destruction is not specified by the language. -/
def farewell (s : St) (order : List Item → List Item) : Str := (order s.loaded).flatMap (fun e => bs!"Plugin " ++ e.plug.name ++ bs!" unloaded\n")

end Verif.Plugins
