import Verif.Model.Split
import Verif.Model.CommonPrefix
import Verif.Model.History
import Verif.Model.Storage
import Verif.Model.Completion
import Verif.Props.FromString

/-!
# The tests of the repository, run on the model (`test/test_split.cpp`, `test_commonprefix.cpp`, `test_history.cpp`, `test_volatilehistorystorage.cpp`,
`test_filehistorystorage.cpp`, `test_menu.cpp`)

The expected results are those of the test files. They confirm that the model computes what the authors of the library expect of the code; they are no proofs of properties.
-/

namespace Verif.Validation
open Verif Verif.Split

/-! ## `test/test_split.cpp` -/

/-! `OddCases` -/
example : split bs!"" = .ok [] := by rfl
example : split bs!" " = .ok [] := by rfl
example : split bs!"  " = .ok [] := by rfl
example : split bs!"   " = .ok [] := by rfl
example : split bs!"\t" = .ok [] := by rfl
example : split bs!"\t\t" = .ok [] := by rfl
example : split bs!" \t \t      " = .ok [] := by rfl
/-! `StandardCases` -/
example : split bs!"1234567890" = .ok [bs!"1234567890"] := by rfl
example : split bs!"  foo " = .ok [bs!"foo"] := by rfl
example : split bs!"  foo \t \t bar \t" = .ok [bs!"foo", bs!"bar"] := by rfl
/-! `DoubleQuotedCases` -/
example : split bs!"\"\"" = .ok [] := by rfl
example : split bs!"\"foo bar\"" = .ok [bs!"foo bar"] := by rfl
example : split bs!"    \t\t \"foo \tbar\"     \t" = .ok [bs!"foo \tbar"] := by rfl
example : split bs!" first   \t\t \"foo \tbar\"     \t last" = .ok [bs!"first", bs!"foo \tbar", bs!"last"] := by rfl
example : split bs!"first\"foo \tbar\"" = .ok [bs!"first", bs!"foo \tbar"] := by rfl
example : split bs!"first \"'second' 'thirdh'\"" = .ok [bs!"first", bs!"'second' 'thirdh'"] := by rfl
/-! `SingleQuotedCases` -/
example : split bs!"''" = .ok [] := by rfl
example : split bs!"'foo bar'" = .ok [bs!"foo bar"] := by rfl
example : split bs!"    \t\t 'foo \tbar'     \t" = .ok [bs!"foo \tbar"] := by rfl
example : split bs!" first   \t\t 'foo \tbar'     \t last" = .ok [bs!"first", bs!"foo \tbar", bs!"last"] := by rfl
example : split bs!"first'foo \tbar'" = .ok [bs!"first", bs!"foo \tbar"] := by rfl
example : split bs!"first '\"second\" \"thirdh\"'" = .ok [bs!"first", bs!"\"second\" \"thirdh\""] := by rfl
/-! `EscapedCases` -/
example : split bs!"foo \\\"bar" = .ok [bs!"foo", bs!"\"bar"] := by rfl
example : split bs!"foo \\'bar\\'" = .ok [bs!"foo", bs!"'bar'"] := by rfl
example : split bs!"foo bar f\\\"oo" = .ok [bs!"foo", bs!"bar", bs!"f\"oo"] := by rfl
example : split bs!"\"foo\\\"bar\\'foo\"" = .ok [bs!"foo\"bar'foo"] := by rfl
example : split bs!"'foo\\'bar\\\"foo'" = .ok [bs!"foo'bar\"foo"] := by rfl
example : split bs!"\"foo\\bar\"" = .ok [bs!"foo\\bar"] := by rfl
example : split bs!"\"foo\\\\\\\"bar\"" = .ok [bs!"foo\\\"bar"] := by rfl
/-! `Symbols` -/
example : split bs!"!foo" = .ok [bs!"!", bs!"foo"] := by rfl
example : split bs!"    !    foo    " = .ok [bs!"!", bs!"foo"] := by rfl
example : split bs!"!42!69!" = .ok [bs!"!", bs!"42", bs!"!", bs!"69", bs!"!"] := by rfl
example : split bs!" 38!42!69! 72 ! 33" = .ok [bs!"38", bs!"!", bs!"42", bs!"!", bs!"69", bs!"!", bs!"72", bs!"!", bs!"33"] := by rfl
example : split bs!" 38!\"42!69\"! \"72 ! 33\" " = .ok [bs!"38", bs!"!", bs!"42!69", bs!"!", bs!"72 ! 33"] := by rfl

/-! ## `test/test_commonprefix.cpp` -/

example : Completion.commonPrefix [bs!"foo"] = .ok bs!"foo" := by rfl
example : Completion.commonPrefix [bs!"foo", bs!"bar"] = .ok [] := by rfl
example : Completion.commonPrefix [bs!"prefix_foo", bs!"prefix_bar"] = .ok bs!"prefix_" := by rfl
example : Completion.commonPrefix [bs!"prefix foo", bs!"prefix bar"] = .ok bs!"prefix " := by rfl

/-! ## `test/test_history.cpp`: a test is a list of calls, and the outcome is the list of the values returned -/

/-- The calls made in the tests. -/
inductive Call where
  | newCommand (s : Str)
  | load (cmds : List Str)
  | next
  | previous (s : Str)
  | at (id : Nat)
  | getCommands

/-- What they return: nothing, a text, or a list of texts. -/
inductive Ret where
  | none
  | text (s : Str)
  | texts (l : List Str)
  deriving DecidableEq

open Verif.History in
/-- The values returned. -/
def calls : List Call → History → Except Fault (List Ret)
  | [], _ => .ok []
  | .newCommand s :: cs, h => do
    let h ← History.newCommand h s
    return .none :: (← calls cs h)
  | .load l :: cs, h => do return .none :: (← calls cs (loadCommands h l))
  | .next :: cs, h => do
    let (s, h) ← History.next h
    return .text s :: (← calls cs h)
  | .previous s :: cs, h => do
    let (s, h) ← History.previous h s
    return .text s :: (← calls cs h)
  | .at i :: cs, h => do
    let s ← History.at h i
    return (match s with | some s => .text s | Option.none => .none) :: (← calls cs h)
  | .getCommands :: cs, h => do return .texts (← History.getCommands h) :: (← calls cs h)

/-! `NotFull` -/
example : calls [.newCommand bs!"item1", .newCommand bs!"item2", .newCommand bs!"item3", .newCommand bs!"item4", .next, .previous bs!"", .next, .previous bs!"", .previous bs!"item4", .previous bs!"item3", .previous bs!"item2", .previous bs!"item1"] (History.init 10) =
    .ok [.none, .none, .none, .none, .text bs!"", .text bs!"item4", .text bs!"", .text bs!"item4", .text bs!"item3", .text bs!"item2", .text bs!"item1", .text bs!"item1"] := by rfl
/-! `Full` -/
example : calls [.newCommand bs!"item1", .newCommand bs!"item2", .newCommand bs!"item3", .newCommand bs!"item4", .previous bs!"", .next, .previous bs!"", .previous bs!"item4", .previous bs!"item3", .previous bs!"item3", .previous bs!"item3", .next, .next] (History.init 3) =
    .ok [.none, .none, .none, .none, .text bs!"item4", .text bs!"", .text bs!"item4", .text bs!"item3", .text bs!"item3", .text bs!"item3", .text bs!"item3", .text bs!"item4", .text bs!""] := by rfl
/-! `Insertion` -/
example : calls [.newCommand bs!"item1", .newCommand bs!"item2", .newCommand bs!"item3", .newCommand bs!"item4", .at 0, .at 1, .at 2, .at 3, .previous bs!"", .previous bs!"item4", .previous bs!"foo", .next, .next, .previous bs!"item4", .previous bs!"foo", .newCommand bs!"item5", .at 0, .at 1, .at 2, .at 3, .at 4, .previous bs!"", .previous bs!"item5", .next, .next] (History.init 10) =
    .ok [.none, .none, .none, .none, .text bs!"item1", .text bs!"item2", .text bs!"item3", .text bs!"item4", .text bs!"item4", .text bs!"item3", .text bs!"item2", .text bs!"foo", .text bs!"item4", .text bs!"foo", .text bs!"item2", .none, .text bs!"item1", .text bs!"item2", .text bs!"foo", .text bs!"item4", .text bs!"item5", .text bs!"item5", .text bs!"item4", .text bs!"item5", .text bs!""] := by rfl
/-! `InsertionIgnoreRepeat` -/
example : calls [.newCommand bs!"item1", .newCommand bs!"item2", .newCommand bs!"item2", .newCommand bs!"item1", .newCommand bs!"item1", .newCommand bs!"item3", .newCommand bs!"item3", .newCommand bs!"item3", .newCommand bs!"item1", .newCommand bs!"item1", .newCommand bs!"item1", .previous bs!"", .previous bs!"item1", .previous bs!"item3", .previous bs!"item1", .previous bs!"item2", .next, .next, .next, .next] (History.init 10) =
    .ok [.none, .none, .none, .none, .none, .none, .none, .none, .none, .none, .none, .text bs!"item1", .text bs!"item3", .text bs!"item1", .text bs!"item2", .text bs!"item1", .text bs!"item2", .text bs!"item1", .text bs!"item3", .text bs!"item1"] := by rfl
/-! `Empty` -/
example : calls [.next, .previous bs!""] (History.init 10) =
    .ok [.text bs!"", .text bs!""] := by rfl
example : calls [.previous bs!"", .next] (History.init 10) =
    .ok [.text bs!"", .text bs!""] := by rfl
example : calls [.previous bs!"", .newCommand bs!"item1", .next, .previous bs!""] (History.init 10) =
    .ok [.text bs!"", .none, .text bs!"", .text bs!"item1"] := by rfl
/-! `Copies` -/
example : calls [.load [bs!"item1", bs!"item2", bs!"item3"], .at 0, .at 1, .at 2, .previous bs!"", .previous bs!"item3", .previous bs!"item2", .previous bs!"item1", .newCommand bs!"itemA", .newCommand bs!"itemB", .at 0, .at 1, .at 2, .at 3, .at 4, .previous bs!"", .previous bs!"itemB", .previous bs!"itemA", .previous bs!"item3", .previous bs!"item2", .getCommands] (History.init 10) =
    .ok [.none, .text bs!"item1", .text bs!"item2", .text bs!"item3", .text bs!"item3", .text bs!"item2", .text bs!"item1", .text bs!"item1", .none, .none, .text bs!"item1", .text bs!"item2", .text bs!"item3", .text bs!"itemA", .text bs!"itemB", .text bs!"itemB", .text bs!"itemA", .text bs!"item3", .text bs!"item2", .text bs!"item1", .texts [bs!"itemA", bs!"itemB"]] := by rfl
example : calls [.load [bs!"item1", bs!"item2", bs!"item3"], .at 0, .at 1, .at 2, .previous bs!"", .previous bs!"item3", .previous bs!"item2", .newCommand bs!"itemA", .newCommand bs!"itemB", .at 2, .at 3, .at 4, .previous bs!"", .previous bs!"itemB", .previous bs!"itemA", .getCommands] (History.init 3) =
    .ok [.none, .text bs!"item1", .text bs!"item2", .text bs!"item3", .text bs!"item3", .text bs!"item2", .text bs!"item2", .none, .none, .text bs!"item3", .text bs!"itemA", .text bs!"itemB", .text bs!"itemB", .text bs!"itemA", .text bs!"itemA", .texts [bs!"itemA", bs!"itemB"]] := by rfl
example : calls [.newCommand bs!"itemA", .newCommand bs!"itemB", .newCommand bs!"itemC", .newCommand bs!"itemD", .newCommand bs!"itemE", .at 2, .at 3, .at 4, .getCommands] (History.init 3) =
    .ok [.none, .none, .none, .none, .none, .text bs!"itemC", .text bs!"itemD", .text bs!"itemE", .texts [bs!"itemC", bs!"itemD", bs!"itemE"]] := by rfl

/-! ## `test/test_volatilehistorystorage.cpp` -/

def v1 : List Str := [bs!"item1", bs!"item2", bs!"item3", bs!"item4", bs!"item5", bs!"item6"]
def v2 : List Str := [bs!"itemA", bs!"itemB", bs!"itemC", bs!"itemD", bs!"itemE", bs!"itemF"]
def expected : List Str := [bs!"item3", bs!"item4", bs!"item5", bs!"item6", bs!"itemA", bs!"itemB", bs!"itemC", bs!"itemD", bs!"itemE", bs!"itemF"]

example : (Storage.Volatile.init 10).Commands = [] := by rfl
example : ((Storage.Volatile.init 10).store v1).Commands = v1 := by rfl
example : (((Storage.Volatile.init 10).store v1).store v2).Commands = expected := by rfl
example : (((Storage.Volatile.init 10).store v1).store v2).clear.Commands = [] := by rfl

/-! ## `test/test_filehistorystorage.cpp`, whatever the file contains at first -/

example (f : Option Str) : (Storage.FileStore.clear ⟨10, f⟩).Commands = [] := by rfl
example (f : Option Str) : ((Storage.FileStore.clear ⟨10, f⟩).store v1).Commands = v1 := by rfl
example (f : Option Str) : (((Storage.FileStore.clear ⟨10, f⟩).store v1).store v2).Commands = expected := by rfl
/-- another object, same file -/
example (f : Option Str) : Storage.FileStore.Commands ⟨10, (((Storage.FileStore.clear ⟨10, f⟩).store v1).store v2).file⟩ = expected := by rfl
example (f : Option Str) : (Storage.FileStore.clear ⟨10, (((Storage.FileStore.clear ⟨10, f⟩).store v1).store v2).file⟩).Commands = [] := by rfl

/-! ## `test/test_menu.cpp` -/

def none' (id : Id) (name : Str) : Cmd := { id, name, kind := .variadic [], fn := 0, desc := [], parDesc := [] }
def subsubmenu : Forest := .cmd (none' 7 bs!"bar") .nil
def submenu : Forest := .menu ⟨6, bs!"subsubmenu", bs!"(menu)", bs!"subsubmenu"⟩ subsubmenu (.cmd (none' 8 bs!"foo") .nil)
def menu : Forest :=
  .cmd (none' 1 bs!"aaa") (.cmd (none' 2 bs!"bbb") (.cmd (none' 3 bs!"aaa_bbb") (.cmd (none' 4 bs!"aaa_ccc") (.menu ⟨5, bs!"submenu", bs!"(menu)", bs!"submenu"⟩ submenu .nil))))
def menuPath : Path := [(⟨0, bs!"menu", bs!"(menu)", bs!"menu"⟩, menu)]

example : Completion.complCurrent Props.plat (fun _ => false) 10 bs!"" menuPath = .ok [bs!"aaa", bs!"bbb", bs!"aaa_bbb", bs!"aaa_ccc", bs!"submenu"] := by rfl
example : Completion.complCurrent Props.plat (fun _ => false) 10 bs!"aaa" menuPath = .ok [bs!"aaa", bs!"aaa_bbb", bs!"aaa_ccc"] := by rfl
example : Completion.complCurrent Props.plat (fun _ => false) 10 bs!"aaa_b" menuPath = .ok [bs!"aaa_bbb"] := by rfl
example : Completion.complCurrent Props.plat (fun _ => false) 10 bs!"b" menuPath = .ok [bs!"bbb"] := by rfl
example : Completion.complCurrent Props.plat (fun _ => false) 10 bs!"submenu" menuPath = .ok [bs!"submenu subsubmenu", bs!"submenu foo", bs!"submenu menu"] := by rfl
example : Completion.complMenu Props.plat (fun _ => false) 10 false menuPath bs!"" = .ok [bs!"menu"] := by rfl
example : Completion.complMenu Props.plat (fun _ => false) 10 false menuPath bs!"me" = .ok [bs!"menu"] := by rfl
example : Completion.complMenu Props.plat (fun _ => false) 10 false menuPath bs!"menu" = .ok [bs!"menu aaa", bs!"menu bbb", bs!"menu aaa_bbb", bs!"menu aaa_ccc", bs!"menu submenu"] := by rfl
example : Completion.complMenu Props.plat (fun _ => false) 10 false menuPath bs!"menu a" = .ok [bs!"menu aaa", bs!"menu aaa_bbb", bs!"menu aaa_ccc"] := by rfl
example : Completion.complMenu Props.plat (fun _ => false) 10 false menuPath bs!"menu submenu" = .ok [bs!"menu submenu subsubmenu", bs!"menu submenu foo", bs!"menu submenu menu"] := by rfl

end Verif.Validation
