import Verif.Model.FileSession
import Verif.Props.FromString

/-!
# The tests of `test/test_cli.cpp`, run on the model

Each test makes a `Cli`, gives a text to a `CliFileSession`, calls `Start` and inspects the output. The three functions that inspect it are those of the test file (lines 40-76).
-/

namespace Verif.Validation
open Verif FromString

/-- `find_first_of`, `find_last_of` and `find`, as the text before and after. -/
def before (c : Byte) (s : Str) : Str := s.takeWhile (· ≠ c)
def beforeLast (c : Byte) (s : Str) : Str := if s.contains c then ((s.reverse.dropWhile (· ≠ c)).drop 1).reverse else s
def afterLast (c : Byte) (s : Str) : Str := (s.reverse.takeWhile (· ≠ c)).reverse
def afterFind (t : Str) : Str → Str
  | [] => if t = [] then [] else []
  | c :: cs => if t.isPrefixOf (c :: cs) then (c :: cs).drop t.length else afterFind t cs
def contains (t : Str) : Str → Bool
  | [] => t.isEmpty
  | c :: cs => t.isPrefixOf (c :: cs) || contains t cs

/-- test_cli.cpp:40-45 -/
def firstPrompt (s : Str) : Str := before b%'>' s
/-- test_cli.cpp:47-54 -/
def lastPrompt (s : Str) : Str := beforeLast b%'>' (afterLast b%'\n' s)
/-- test_cli.cpp:68-77 -/
def content (s : Str) : Str := afterFind (afterLast b%'\n' s) (beforeLast b%'\n' s)

/-- `out << n`, for numbers of at most ten digits. -/
def natText : Nat → Nat → Str
  | 0, _ => []
  | k + 1, n => if n < 10 then [UInt8.ofNat (48 + n)] else natText k (n / 10) ++ [UInt8.ofNat (48 + n % 10)]

/-- `out << par`. -/
def text : Value → Str
  | .int i => if i < 0 then b%'-' :: natText 10 i.natAbs else natText 10 i.natAbs
  | .char c => [c]
  | .str s => s
  | .float _ n => if n = 1 then bs!"0.1" else []
  | _ => []

/-- The conversions of floating point numbers the tests rely on. -/
def testPlat : Platform := { Props.plat with parseFloat := fun _ s => if s = bs!"0.1" then some (1, 3) else none }

/-- Function 1 prints its parameters, 2 prints them with `*` after each, 3 throws a `std::logic_error`, 4 throws 42. The state tells whether the enter action, the exit action and the exception handler have been called. -/
def testApp (handler : Bool) : App (Bool × Bool × Bool) Unit :=
  { plat := testPlat
    handler := fun fn s vals =>
      { app := s
        acts := if fn = 1 then [.out (vals.flatMap text ++ bs!"\n")] else if fn = 2 then [.out (vals.flatMap (fun v => text v ++ bs!"*") ++ bs!"\n")] else []
        exn := if fn = 3 then some (.std bs!"myerror") else if fn = 4 then some .other else none }
    onException := if handler then some (fun s _ _ => ⟨(s.1, s.2.1, true), [], none⟩) else none
    onWrong := none
    enterGlobal := some (fun s => ⟨(true, s.2.1, s.2.2), [], none⟩)
    exitGlobal := some (fun s => ⟨(s.1, true, s.2.2), [], none⟩)
    enterSession := none, exitSession := none, store := fun _ _ => (), stored := fun _ => [] }

/-- What `UserInput` (test_cli.cpp:79-88) leaves in the output stream, and the state of the application; `none` if something goes wrong. -/
def userInput (handler : Bool) (kids : Forest) (input : Str) : Option (Str × Bool × Bool × Bool) :=
  let t : Tree := ⟨⟨0, bs!"cli", [], bs!"cli"⟩, kids⟩
  let w : World (Bool × Bool × Bool) Unit :=
    { app := (false, false, false), tree := t, dis := fun _ => false, used := t.ids, gen := 0, storage := (), io := ⟨⟨false, false, false⟩, []⟩, casts := [],
      hist := History.init 1, current := 0, exit := false, log := [] }
  match FileSession.create (testApp handler) (FileSession.In.of (input ++ bs!"\n")) true w w.io with
  | .error _ => none
  | .ok w =>
    match FileSession.start (FileSession.fileApp (testApp handler) none) 10 10 (FileSession.In.of (input ++ bs!"\n")) w with
    | .ok (some ⟨w, _, _, none⟩) => some (w.io.out, w.app.1)
    | _ => none

/-- What is written for the input. -/
def shown (kids : Forest) (input : Str) : Option Str := (userInput false kids input).map (·.1)


/-! `Basics` -/

def basicsMenu : Forest :=
  .cmd ⟨1, bs!"int_cmd", .variadic [⟨.signed .w32, bs!"<int>"⟩], 1, bs!"int_cmd help", [bs!"int_par"]⟩ (.cmd ⟨2, bs!"string_cmd", .variadic [⟨.string, bs!"<string>"⟩], 1, bs!"string_cmd help", [bs!"string_par"]⟩ (.nil))

example : (shown basicsMenu bs!"help").map firstPrompt = some bs!"cli" := by decide +kernel
example : (shown basicsMenu bs!"help").map lastPrompt = some bs!"cli" := by decide +kernel
example : (shown basicsMenu bs!"help").map (contains bs!"int_cmd" <| content ·) = some true := by decide +kernel
example : (shown basicsMenu bs!"help").map (contains bs!"<int_par>" <| content ·) = some true := by decide +kernel
example : (shown basicsMenu bs!"help").map (contains bs!"string_cmd" <| content ·) = some true := by decide +kernel
example : (shown basicsMenu bs!"help").map (contains bs!"<string_par>" <| content ·) = some true := by decide +kernel
example : (shown basicsMenu bs!"int_cmd 42").map firstPrompt = some bs!"cli" := by decide +kernel
example : (shown basicsMenu bs!"int_cmd 42").map lastPrompt = some bs!"cli" := by decide +kernel
example : (shown basicsMenu bs!"int_cmd 42").map content = some bs!"42" := by decide +kernel
example : (shown basicsMenu bs!"int_cmd wrong_int_parameter").map firstPrompt = some bs!"cli" := by decide +kernel
example : (shown basicsMenu bs!"int_cmd wrong_int_parameter").map lastPrompt = some bs!"cli" := by decide +kernel
example : (shown basicsMenu bs!"int_cmd wrong_int_parameter").map (contains bs!"wrong command:" <| content ·) = some true := by decide +kernel
example : (shown basicsMenu bs!"int_cmd 42 0").map firstPrompt = some bs!"cli" := by decide +kernel
example : (shown basicsMenu bs!"int_cmd 42 0").map lastPrompt = some bs!"cli" := by decide +kernel
example : (shown basicsMenu bs!"int_cmd 42 0").map (contains bs!"wrong command:" <| content ·) = some true := by decide +kernel
example : (shown basicsMenu bs!"string_cmd foo").map firstPrompt = some bs!"cli" := by decide +kernel
example : (shown basicsMenu bs!"string_cmd foo").map lastPrompt = some bs!"cli" := by decide +kernel
example : (shown basicsMenu bs!"string_cmd foo").map content = some bs!"foo" := by decide +kernel
example : (shown basicsMenu bs!"string_cmd \"foo 'bar' \\\"foo\\\\2\"").map firstPrompt = some bs!"cli" := by decide +kernel
example : (shown basicsMenu bs!"string_cmd \"foo 'bar' \\\"foo\\\\2\"").map lastPrompt = some bs!"cli" := by decide +kernel
example : (shown basicsMenu bs!"string_cmd \"foo 'bar' \\\"foo\\\\2\"").map content = some bs!"foo 'bar' \"foo\\2" := by decide +kernel

/-! `parameters` -/

def parametersMenu : Forest :=
  .cmd ⟨1, bs!"char_cmd", .variadic [⟨.char, bs!"<char>"⟩], 1, bs!"char_cmd help", [bs!"char_par"]⟩ (.cmd ⟨2, bs!"unsigned_char_cmd", .variadic [⟨.unsigned .w8, bs!"<unsigned char>"⟩], 1, bs!"unsigned_char_cmd help", [bs!"unsigned_char_par"]⟩ (.cmd ⟨3, bs!"signed_char_cmd", .variadic [⟨.signed .w8, bs!"<signed char>"⟩], 1, bs!"signed_char_cmd help", [bs!"signed_char_par"]⟩ (.cmd ⟨4, bs!"short_cmd", .variadic [⟨.signed .w16, bs!"<short>"⟩], 1, bs!"short_cmd help", [bs!"short_par"]⟩ (.cmd ⟨5, bs!"unsigned_short_cmd", .variadic [⟨.unsigned .w16, bs!"<unsigned short>"⟩], 1, bs!"unsigned_short_cmd help", [bs!"unsigned_short_par"]⟩ (.cmd ⟨6, bs!"int_cmd", .variadic [⟨.signed .w32, bs!"<int>"⟩], 1, bs!"int_cmd help", [bs!"int_par"]⟩ (.cmd ⟨7, bs!"unsigned_int_cmd", .variadic [⟨.unsigned .w32, bs!"<unsigned int>"⟩], 1, bs!"unsigned_int_cmd help", [bs!"unsigned_int_par"]⟩ (.cmd ⟨8, bs!"long_cmd", .variadic [⟨.signed .w64, bs!"<long>"⟩], 1, bs!"long_cmd help", [bs!"long_par"]⟩ (.cmd ⟨9, bs!"unsigned_long_cmd", .variadic [⟨.unsigned .w64, bs!"<unsigned long>"⟩], 1, bs!"unsigned_long_cmd help", [bs!"unsigned_long_par"]⟩ (.cmd ⟨10, bs!"long_long_cmd", .variadic [⟨.signed .w64, bs!"<long long>"⟩], 1, bs!"long_long_cmd help", [bs!"long_long_par"]⟩ (.cmd ⟨11, bs!"unsigned_long_long_cmd", .variadic [⟨.unsigned .w64, bs!"<unsigned long long>"⟩], 1, bs!"unsigned_long_long_cmd help", [bs!"unsigned_long_long_par"]⟩ (.cmd ⟨12, bs!"float_cmd", .variadic [⟨.float 0, bs!"<float>"⟩], 1, bs!"float_cmd help", [bs!"float_par"]⟩ (.cmd ⟨13, bs!"double_cmd", .variadic [⟨.float 1, bs!"<double>"⟩], 1, bs!"double_cmd help", [bs!"double_par"]⟩ (.cmd ⟨14, bs!"long_double_cmd", .variadic [⟨.float 2, bs!"<long double>"⟩], 1, bs!"long_double_cmd help", [bs!"long_double_par"]⟩ (.cmd ⟨15, bs!"string_cmd", .variadic [⟨.string, bs!"<string>"⟩], 1, bs!"string_cmd help", [bs!"string_par"]⟩ (.nil)))))))))))))))

example : (shown parametersMenu bs!"char_cmd a").map content = some bs!"a" := by decide +kernel
example : (shown parametersMenu bs!"char_cmd ' '").map content = some bs!" " := by decide +kernel
example : (shown parametersMenu bs!"char_cmd aa").map (contains bs!"wrong command:" <| content ·) = some true := by decide +kernel
example : (shown parametersMenu bs!"unsigned_char_cmd 42").map content = some bs!"42" := by decide +kernel
example : (shown parametersMenu bs!"unsigned_char_cmd -42").map (contains bs!"wrong command:" <| content ·) = some true := by decide +kernel
example : (shown parametersMenu bs!"unsigned_char_cmd a").map (contains bs!"wrong command:" <| content ·) = some true := by decide +kernel
example : (shown parametersMenu bs!"unsigned_char_cmd 99999999999999999999999999999999999999999").map (contains bs!"wrong command:" <| content ·) = some true := by decide +kernel
example : (shown parametersMenu bs!"signed_char_cmd 42").map content = some bs!"42" := by decide +kernel
example : (shown parametersMenu bs!"signed_char_cmd -42").map content = some bs!"-42" := by decide +kernel
example : (shown parametersMenu bs!"signed_char_cmd a").map (contains bs!"wrong command:" <| content ·) = some true := by decide +kernel
example : (shown parametersMenu bs!"signed_char_cmd 99999999999999999999999999999999999999999").map (contains bs!"wrong command:" <| content ·) = some true := by decide +kernel
example : (shown parametersMenu bs!"short_cmd 42").map content = some bs!"42" := by decide +kernel
example : (shown parametersMenu bs!"short_cmd -42").map content = some bs!"-42" := by decide +kernel
example : (shown parametersMenu bs!"short_cmd a").map (contains bs!"wrong command:" <| content ·) = some true := by decide +kernel
example : (shown parametersMenu bs!"short_cmd 99999999999999999999999999999999999999999").map (contains bs!"wrong command:" <| content ·) = some true := by decide +kernel
example : (shown parametersMenu bs!"unsigned_short_cmd 42").map content = some bs!"42" := by decide +kernel
example : (shown parametersMenu bs!"unsigned_short_cmd -42").map (contains bs!"wrong command:" <| content ·) = some true := by decide +kernel
example : (shown parametersMenu bs!"unsigned_short_cmd a").map (contains bs!"wrong command:" <| content ·) = some true := by decide +kernel
example : (shown parametersMenu bs!"unsigned_short_cmd 99999999999999999999999999999999999999999").map (contains bs!"wrong command:" <| content ·) = some true := by decide +kernel
example : (shown parametersMenu bs!"int_cmd 42").map content = some bs!"42" := by decide +kernel
example : (shown parametersMenu bs!"int_cmd -42").map content = some bs!"-42" := by decide +kernel
example : (shown parametersMenu bs!"int_cmd a").map (contains bs!"wrong command:" <| content ·) = some true := by decide +kernel
example : (shown parametersMenu bs!"int_cmd 99999999999999999999999999999999999999999").map (contains bs!"wrong command:" <| content ·) = some true := by decide +kernel
example : (shown parametersMenu bs!"unsigned_int_cmd 42").map content = some bs!"42" := by decide +kernel
example : (shown parametersMenu bs!"unsigned_int_cmd -42").map (contains bs!"wrong command:" <| content ·) = some true := by decide +kernel
example : (shown parametersMenu bs!"unsigned_int_cmd a").map (contains bs!"wrong command:" <| content ·) = some true := by decide +kernel
example : (shown parametersMenu bs!"unsigned_int_cmd 99999999999999999999999999999999999999999").map (contains bs!"wrong command:" <| content ·) = some true := by decide +kernel
example : (shown parametersMenu bs!"long_cmd 42").map content = some bs!"42" := by decide +kernel
example : (shown parametersMenu bs!"long_cmd -42").map content = some bs!"-42" := by decide +kernel
example : (shown parametersMenu bs!"long_cmd a").map (contains bs!"wrong command:" <| content ·) = some true := by decide +kernel
example : (shown parametersMenu bs!"unsigned_long_cmd 42").map content = some bs!"42" := by decide +kernel
example : (shown parametersMenu bs!"unsigned_long_cmd -42").map (contains bs!"wrong command:" <| content ·) = some true := by decide +kernel
example : (shown parametersMenu bs!"unsigned_long_cmd a").map (contains bs!"wrong command:" <| content ·) = some true := by decide +kernel
example : (shown parametersMenu bs!"long_long_cmd 42").map content = some bs!"42" := by decide +kernel
example : (shown parametersMenu bs!"long_long_cmd -42").map content = some bs!"-42" := by decide +kernel
example : (shown parametersMenu bs!"long_long_cmd a").map (contains bs!"wrong command:" <| content ·) = some true := by decide +kernel
example : (shown parametersMenu bs!"unsigned_long_long_cmd 42").map content = some bs!"42" := by decide +kernel
example : (shown parametersMenu bs!"unsigned_long_long_cmd -42").map (contains bs!"wrong command:" <| content ·) = some true := by decide +kernel
example : (shown parametersMenu bs!"unsigned_long_long_cmd a").map (contains bs!"wrong command:" <| content ·) = some true := by decide +kernel
example : (shown parametersMenu bs!"float_cmd 0.1").map content = some bs!"0.1" := by decide +kernel
example : (shown parametersMenu bs!"float_cmd a").map (contains bs!"wrong command:" <| content ·) = some true := by decide +kernel
example : (shown parametersMenu bs!"double_cmd 0.1").map content = some bs!"0.1" := by decide +kernel
example : (shown parametersMenu bs!"double_cmd a").map (contains bs!"wrong command:" <| content ·) = some true := by decide +kernel
example : (shown parametersMenu bs!"long_double_cmd 0.1").map content = some bs!"0.1" := by decide +kernel
example : (shown parametersMenu bs!"long_double_cmd a").map (contains bs!"wrong command:" <| content ·) = some true := by decide +kernel

/-! `freeform` -/

def freeformMenu : Forest :=
  .cmd ⟨1, bs!"cmd_printer_by_ref", .freeform, 2, [], []⟩ (.cmd ⟨2, bs!"cmd_printer_by_value", .freeform, 2, [], []⟩ (.nil))

example : (shown freeformMenu bs!"cmd_printer_by_value a b 'c d e' f").map firstPrompt = some bs!"cli" := by decide +kernel
example : (shown freeformMenu bs!"cmd_printer_by_value a b 'c d e' f").map lastPrompt = some bs!"cli" := by decide +kernel
example : (shown freeformMenu bs!"cmd_printer_by_value a b 'c d e' f").map content = some bs!"a*b*c d e*f*" := by decide +kernel
example : (shown freeformMenu bs!"cmd_printer_by_ref a b 'c d e' f").map firstPrompt = some bs!"cli" := by decide +kernel
example : (shown freeformMenu bs!"cmd_printer_by_ref a b 'c d e' f").map lastPrompt = some bs!"cli" := by decide +kernel
example : (shown freeformMenu bs!"cmd_printer_by_ref a b 'c d e' f").map content = some bs!"a*b*c d e*f*" := by decide +kernel
example : (shown freeformMenu bs!"cmd_printer_by_value").map firstPrompt = some bs!"cli" := by decide +kernel
example : (shown freeformMenu bs!"cmd_printer_by_value").map lastPrompt = some bs!"cli" := by decide +kernel
example : (shown freeformMenu bs!"cmd_printer_by_value").map content = some bs!"" := by decide +kernel

/-! `borderLine` -/

def borderLineMenu : Forest :=
  .nil

example : shown borderLineMenu bs!"" = some bs!"cli> cli> " := by decide +kernel
example : shown borderLineMenu bs!"\t" = some bs!"cli> cli> " := by decide +kernel

/-! `Submenus` -/

def submenusMenu : Forest :=
  .menu ⟨6, bs!"sub", bs!"(menu)", bs!"sub"⟩ (.cmd ⟨1, bs!"int_cmd", .variadic [⟨.signed .w32, bs!"<int>"⟩], 1, bs!"int_cmd help", [bs!"int_par"]⟩ (.cmd ⟨2, bs!"string_cmd", .variadic [⟨.string, bs!"<string>"⟩], 1, bs!"string_cmd help", [bs!"string_par"]⟩ (.menu ⟨5, bs!"subsub", bs!"(menu)", bs!"subsub"⟩ (.cmd ⟨3, bs!"double_int_cmd", .variadic [⟨.signed .w32, bs!"<int>"⟩, ⟨.signed .w32, bs!"<int>"⟩], 1, [], []⟩ (.cmd ⟨4, bs!"double_string_cmd", .variadic [⟨.string, bs!"<string>"⟩, ⟨.string, bs!"<string>"⟩], 1, [], []⟩ (.nil))) (.nil)))) (.nil)

example : (shown submenusMenu bs!"help").map firstPrompt = some bs!"cli" := by decide +kernel
example : (shown submenusMenu bs!"help").map lastPrompt = some bs!"cli" := by decide +kernel
example : (shown submenusMenu bs!"help").map (contains bs!"sub" <| content ·) = some true := by decide +kernel
example : (shown submenusMenu bs!"help").map (contains bs!"help" <| content ·) = some true := by decide +kernel
example : (shown submenusMenu bs!"help").map (contains bs!"exit" <| content ·) = some true := by decide +kernel
example : (shown submenusMenu bs!"sub int_cmd 42").map firstPrompt = some bs!"cli" := by decide +kernel
example : (shown submenusMenu bs!"sub int_cmd 42").map lastPrompt = some bs!"cli" := by decide +kernel
example : (shown submenusMenu bs!"sub int_cmd 42").map content = some bs!"42" := by decide +kernel
example : (shown submenusMenu bs!"sub string_cmd foo").map firstPrompt = some bs!"cli" := by decide +kernel
example : (shown submenusMenu bs!"sub string_cmd foo").map lastPrompt = some bs!"cli" := by decide +kernel
example : (shown submenusMenu bs!"sub string_cmd foo").map content = some bs!"foo" := by decide +kernel
example : (shown submenusMenu bs!"sub subsub double_int_cmd 42 0").map firstPrompt = some bs!"cli" := by decide +kernel
example : (shown submenusMenu bs!"sub subsub double_int_cmd 42 0").map lastPrompt = some bs!"cli" := by decide +kernel
example : (shown submenusMenu bs!"sub subsub double_int_cmd 42 0").map content = some bs!"420" := by decide +kernel
example : (shown submenusMenu bs!"sub subsub double_string_cmd foo bar").map firstPrompt = some bs!"cli" := by decide +kernel
example : (shown submenusMenu bs!"sub subsub double_string_cmd foo bar").map lastPrompt = some bs!"cli" := by decide +kernel
example : (shown submenusMenu bs!"sub subsub double_string_cmd foo bar").map content = some bs!"foobar" := by decide +kernel
example : (shown submenusMenu bs!"sub\nint_cmd 42").map lastPrompt = some bs!"sub" := by decide +kernel
example : (shown submenusMenu bs!"sub\nint_cmd 42").map content = some bs!"42" := by decide +kernel
example : (shown submenusMenu bs!"sub\nstring_cmd foo").map lastPrompt = some bs!"sub" := by decide +kernel
example : (shown submenusMenu bs!"sub\nstring_cmd foo").map content = some bs!"foo" := by decide +kernel

/-! `EnterActions` -/

def enterActionsMenu : Forest :=
  .cmd ⟨1, bs!"int_cmd", .variadic [⟨.signed .w32, bs!"<int>"⟩], 1, bs!"int_cmd help", [bs!"int_par"]⟩ (.cmd ⟨2, bs!"string_cmd", .variadic [⟨.string, bs!"<string>"⟩], 1, bs!"string_cmd help", [bs!"string_par"]⟩ (.nil))

example : (userInput false enterActionsMenu bs!"exit").map (·.2.1) = some true := by decide +kernel

/-! `ExitActions` -/

def exitActionsMenu : Forest :=
  .cmd ⟨1, bs!"int_cmd", .variadic [⟨.signed .w32, bs!"<int>"⟩], 1, bs!"int_cmd help", [bs!"int_par"]⟩ (.cmd ⟨2, bs!"string_cmd", .variadic [⟨.string, bs!"<string>"⟩], 1, bs!"string_cmd help", [bs!"string_par"]⟩ (.nil))

example : (userInput false exitActionsMenu bs!"exit").map (·.2.2.1) = some true := by decide +kernel

/-! `Exceptions` -/

def exceptionsMenu : Forest :=
  .cmd ⟨1, bs!"stdexception", .variadic [], 3, [], []⟩ (.cmd ⟨2, bs!"customexception", .variadic [], 4, [], []⟩ (.nil))

example : (userInput false exceptionsMenu bs!"stdexception").isSome := by decide +kernel
example : (shown exceptionsMenu bs!"stdexception").map content = some bs!"myerror" := by decide +kernel
example : (userInput true exceptionsMenu bs!"stdexception").isSome := by decide +kernel
example : (userInput true exceptionsMenu bs!"stdexception").map (·.2.2.2) = some true := by decide +kernel
example : (userInput true exceptionsMenu bs!"customexception").isSome := by decide +kernel

end Verif.Validation
