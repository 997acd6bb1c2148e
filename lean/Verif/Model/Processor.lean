import Verif.Model.Completion
import Verif.Model.CommonPrefix
import Verif.Model.Terminal

/-!
# Model of `detail::CommandProcessor` (`include/cli/detail/commandprocessor.h`)

with the screen of `include/cli/detail/telnetscreen.h` (also used on Linux; `winscreen.h`, which clears the console through the Windows API, is in `Model/WinScreen`).
-/

namespace Verif.Processor
open Terminal (Term Key Symbol)

/-- commandprocessor.h:164-166: the session, the line editor and whether the input device is active (`ActivateInput`, `DeactivateInput`). -/
structure Proc (σ τ : Type) where
  w : World σ τ
  term : Term
  active : Bool

section
variable {σ τ : Type} (A : App σ τ)

/-- telnetscreen.h:42 `TelnetScreen::Clear`. -/
def clearScreen : Str := 27 :: bs!"[H" ++ 27 :: bs!"[J"

/-- `terminal.SetLine(s)`. -/
def setLine (p : Proc σ τ) (s : Str) : Proc σ τ :=
  let r := Terminal.setLine p.term p.w.io s
  { p with term := r.1, w := { p.w with io := r.2 } }

/-- commandprocessor.h:144 and 145: the items shown. -/
def items (l : List Str) : Str := l.flatMap (fun c => b%'\t' :: c)

/-- `session.Prompt(); terminal.ResetCursor(); terminal.SetLine(line);` (146-148, 155-157) -/
def redraw (p : Proc σ τ) (line : Str) : Except Fault (Proc σ τ) := do
  let w ← prompt p.w
  .ok (setLine { p with w := w, term := Terminal.resetCursor p.term } line)

/-- commandprocessor.h:123-150: `Symbol::tab`. -/
def tab (fuel : Nat) (p : Proc σ τ) : Except Fault (Proc σ τ) := do
  let line := p.term.line
  let cs ← Completion.completions A.plat fuel p.w line
  match cs with
  | [] => .ok p
  | [c] => .ok (setLine p (c ++ [b%' ']))
  | cs => do
    let pre ← Completion.commonPrefix cs
    if pre.length > line.length then .ok (setLine p pre)
    else redraw { p with w := (p.w.put bs!"\n").put (items cs ++ bs!"\n") } line

/-- commandprocessor.h:91-162 `NewCommand`, with the exception that leaves it, if any. `fuel` bounds recursion in `Feed` and in `GetCompletions`. -/
def newCommand (fuel : Nat) (p : Proc σ τ) : Symbol → Except Fault (Proc σ τ × Option Exn)
  | .nothing => .ok (p, none)
  | .eof => do
    let (w, x) ← exitSession A p.w
    .ok ({ p with w := w }, x)
  | .command s => do
    let p := { p with active := false }
    let (w, x) ← feed A fuel s p.w
    match x with
    | some e => .ok ({ p with w := w }, some e)
    | none => do
      let w ← prompt w
      .ok ({ p with w := w, active := true }, none)
  | .down => do
    let (s, h) ← History.next p.w.hist
    .ok (setLine { p with w := { p.w with hist := h } } s, none)
  | .up => do
    let (s, h) ← History.previous p.w.hist p.term.line
    .ok (setLine { p with w := { p.w with hist := h } } s, none)
  | .tab => do
    let p ← tab A fuel p
    .ok (p, none)
  | .clear => do
    let p ← redraw { p with w := p.w.put clearScreen } p.term.line
    .ok (p, none)

/-- commandprocessor.h:80-84 `Keypressed`. -/
def keypressed (fuel : Nat) (p : Proc σ τ) (k : Key) : Except Fault (Proc σ τ × Option Exn) := do
  let (t, io, s) ← Terminal.keypressed p.term p.w.io k
  newCommand A fuel { p with term := t, w := { p.w with io := io } } s

/-- A sequence of key presses; an exception ends it. -/
def run (fuel : Nat) : List Key → Proc σ τ → Except Fault (Proc σ τ × Option Exn)
  | [], p => .ok (p, none)
  | k :: ks, p => do
    let (p, x) ← keypressed A fuel p k
    match x with
    | some e => .ok (p, some e)
    | none => run fuel ks p

end
end Verif.Processor
