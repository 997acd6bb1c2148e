import Verif.Model.Processor
import Verif.Spec.Display

/-!
# Model of Ctrl-L on Windows (`include/cli/detail/winscreen.h`)

On Windows `CommandProcessor` is used with `WinScreen` (screen.h:36-39, clilocalsession.h:74), which clears the console of the process through the Windows API instead of writing to the stream of the session. So the console is
part of the state: what has been written to the stream is shown by it after each key (the stream is flushed, C105), if it is where the stream goes. The console shows what is written as `Spec.Screen` says: lines do not wrap and nothing scrolls.
-/

namespace Verif.WinScreen
open Spec (Screen)
open Processor (Proc)

/-- A screen buffer of the console: its size (`CONSOLE_SCREEN_BUFFER_INFO::dwSize`) and what it shows. -/
structure Console where
  width : Nat
  height : Nat
  screen : Screen

/-- Ends of an execution: those of the other models, and the use of a variable that has no value. -/
inductive Undefined where
  | fault (f : Fault)
  | indeterminate
  deriving DecidableEq, Repr

/-- `FillConsoleOutputCharacter` from the first cell on, row by row, as far as there are cells; attributes stay. -/
def fill (c : Console) (ch : Byte) (n : Nat) : Console :=
  { c with screen := { c.screen with cell := fun row col => if col < c.width ∧ row < c.height ∧ row * c.width + col < n then ch else c.screen.cell row col } }

/-- `SetConsoleCursorPosition`. -/
def setCursor (c : Console) (row col : Nat) : Console := { c with screen := { c.screen with row := row, col := col } }

/-- winscreen.h:43-54 `WinScreen::Clear`. The argument is what the standard output of the process is: a console, or something else (`none`). Then `GetConsoleScreenBufferInfo` fails (line 50), and `csbi.dwSize` is read without
    having a value (line 52). -/
def clear : Option Console → Except Undefined (Option Console)
  | none => .error .indeterminate
  | some c => .ok (some (setCursor (fill c b%' ' (c.width * c.height)) 0 0))

/-- A local session. -/
structure St (σ τ : Type) where
  q : Proc σ τ
  /-- the console that is the standard output of the process, if it is one -/
  con : Option Console
  /-- the stream of the session (clilocalsession.h:63) writes to the standard output -/
  direct : Bool
  /-- what has been written to the stream if it is another one, or is not shown -/
  elsewhere : Str

section
variable {σ τ : Type} (A : App σ τ)

/-- What has been written to the stream arrives. -/
def arrive (s : St σ τ) : St σ τ :=
  match s.con, s.direct with
  | some c, true => { s with con := some { c with screen := c.screen.run s.q.w.io.out }, q := { s.q with w := { s.q.w with io := { s.q.w.io with out := [] } } } }
  | _, _ => { s with elsewhere := s.elsewhere ++ s.q.w.io.out, q := { s.q with w := { s.q.w with io := { s.q.w.io with out := [] } } } }

/-- commandprocessor.h:80-84 and 91-162, with `WinScreen`: lines 152-158 for Ctrl-L. -/
def keypressed (fuel : Nat) (s : St σ τ) (k : Terminal.Key) : Except Undefined (St σ τ × Option Exn) :=
  match Terminal.keypressed s.q.term s.q.w.io k with
  | .error f => .error (.fault f)
  | .ok (t, io, .clear) =>
    let s := arrive { s with q := { s.q with term := t, w := { s.q.w with io := io } } }
    match clear s.con with
    | .error e => .error e
    | .ok con =>
      match Processor.redraw s.q s.q.term.line with
      | .error f => .error (.fault f)
      | .ok q => .ok (arrive { s with q := q, con := con }, none)
  | .ok (t, io, sym) =>
    match Processor.newCommand A fuel { s.q with term := t, w := { s.q.w with io := io } } sym with
    | .error f => .error (.fault f)
    | .ok (q, x) => .ok (arrive { s with q := q }, x)

/-- A sequence of key presses; an exception ends it. -/
def run (fuel : Nat) : List Terminal.Key → St σ τ → Except Undefined (St σ τ × Option Exn)
  | [], s => .ok (s, none)
  | k :: ks, s =>
    match keypressed A fuel s k with
    | .error e => .error e
    | .ok (s, some x) => .ok (s, some x)
    | .ok (s, none) => run fuel ks s

end
end Verif.WinScreen
