import Verif.Model.Rang

/-!
# Specification: which streams are terminals with colours, and the colours of a Windows console
-/

namespace Verif.Spec
open Rang (Env Os Op)

/-- Names of terminals that understand the escape sequences. -/
def colourTerminals : List Str :=
  [bs!"ansi", bs!"color", bs!"console", bs!"cygwin", bs!"gnome", bs!"konsole", bs!"kterm", bs!"linux", bs!"msys", bs!"putty", bs!"rxvt", bs!"screen", bs!"vt100", bs!"xterm"]

/-- The terminal understands them: on Windows always, elsewhere if one of the names occurs in `TERM`. -/
def Understands : Os → Env → Prop
  | .unix, e => ∃ t, e.term = some t ∧ ∃ n ∈ colourTerminals, n <:+: t
  | .windows _, _ => True

/-- A buffer belongs to a terminal: it is that of `std::cout`, and the standard output is a terminal; or else it is that of `std::cerr` or `std::clog`, and the standard error is one. -/
def OnTerminal (e : Env) (buf : Nat) : Prop :=
  (buf = e.cout ∧ e.ttyOut = true) ∨ (buf ≠ e.cout ∧ (buf = e.cerr ∨ buf = e.clog) ∧ e.ttyErr = true)

/-- The texts that a program has written. -/
def texts : List Op → Str
  | [] => []
  | .text t :: l => t ++ texts l
  | _ :: l => texts l

/-- The attribute of a Windows console has four bits for the letters, and four for the background, from `at_`: blue, green, red, bright; a colour of the terminals has the bits red, green, blue. -/
def Painted (at_ : Nat) (bright : Bool) (colour : Nat) (before after : BitVec 16) : Prop :=
  ∀ i, i < 16 → after.getLsbD i =
    if i = at_ then colour.testBit 2 else if i = at_ + 1 then colour.testBit 1 else if i = at_ + 2 then colour.testBit 0 else if i = at_ + 3 then bright else before.getLsbD i

/-- The attributes that a console shows one after the other: green letters for the prompt, bright white ones for the input, white ones again afterwards. -/
def attributes : Bool → List Op → List (BitVec 16)
  | _, [] => []
  | _, .color on :: l => attributes on l
  | true, .beforePrompt :: l => 2 :: 2 :: attributes true l
  | true, .beforeInput :: l => 15 :: attributes true l
  | c, .afterPrompt :: l => 7 :: attributes c l
  | c, .afterInput :: l => 7 :: attributes c l
  | c, _ :: l => attributes c l

end Verif.Spec
