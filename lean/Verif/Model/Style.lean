import Verif.Basic

/-!
# Model of the coloured output (`include/cli/colorprofile.h`, `include/cli/detail/rang.h`)

The Windows console branch of `rang` (attributes set by API calls) is modelled in Model/Rang.
-/

namespace Verif

/-- What decides whether escape sequences are written. -/
structure Style where
  /-- `Color()` (colorprofile.h:38): the process-wide colour flag -/
  color : Bool
  /-- rang.h:276-278: `supportsColor() && isTerminal(os.rdbuf())`, fixed by the environment -/
  tty : Bool
  /-- rang.h:276, 288: the stream's `iword`, set by `forceColor` and never reset by the library -/
  forced : Bool
  deriving DecidableEq, Repr

/-- The session's output stream: its style state and everything written so far. -/
structure Io where
  style : Style
  out : Str
  deriving DecidableEq, Repr

namespace Io

/-- `os << s`. -/
def put (io : Io) (s : Str) : Io := { io with out := io.out ++ s }

/-- rang.h:271-281: `os << style/fg/fgB` with numeric value `n`. -/
def sgr (io : Io) (n : Nat) : Io :=
  if io.style.forced || io.style.tty then io.put (27 :: b%'[' :: decimal n ++ [b%'m']) else io

/-- rang.h:283-293: `os << control::forceColor`. -/
def force (io : Io) : Io := { io with style := { io.style with forced := true } }

/-- colorprofile.h:48-52: `forceColor`, green (32), bold (1). -/
def beforePrompt (io : Io) : Io := if io.style.color then (io.force.sgr 32).sgr 1 else io
/-- colorprofile.h:54-58: reset (0). -/
def afterPrompt (io : Io) : Io := io.sgr 0
/-- colorprofile.h:60-64: `forceColor`, bright gray (97). -/
def beforeInput (io : Io) : Io := if io.style.color then io.force.sgr 97 else io
/-- colorprofile.h:66-70: reset (0). -/
def afterInput (io : Io) : Io := io.sgr 0

end Io
end Verif
